import Verif.Props.Heap
import Mathlib.Data.List.Nodup
import Mathlib.Data.List.Perm.Subperm

/-!
# C112: what a collector keeps is bounded

All theorems are about `St.run` from program start, as those of `Verif/Props/Heap.lean`.
-/

set_option linter.unusedSectionVars false
set_option linter.unusedVariables false
set_option linter.unusedSimpArgs false

namespace Trc.Heap

open Trc.Core Trc.Core.Spec
open Trc.Ring (RBs MOp FRep FamOK CapInv)

variable {W A : Type} [Sys W A]

/-! ## Statement -/

/-- The events that a list of traces keeps in memory. -/
def eventsOf (s : St W A) (hds : List Handle) : Nat := (hds.map fun hd => (s.heap.traces hd.addr).events.length).sum

/-- What a program asks for: categories out of `names`, never more than `size` traces per category of a collector,
and never more than `limit` events per trace. -/
structure Modest (names : List String) (size limit : Nat) (acts : List (Act W A)) : Prop where
  categories : ∀ k c, .getOrCreate k c ∈ acts → c ∈ names
  collectors : ∀ c, .newCollector c ∈ acts → (if c ≤ 0 then 1000 else c) ≤ (size : Int)
  sizes : ∀ k c order, .beginResize k c order ∈ acts → c ≤ (size : Int)
  globals : ∀ m, .set (.maxEvents m) ∈ acts → clamped m ≤ (limit : Int)
  limits : ∀ a env m ch, .call a env (.setMaxEvents m) ch ∈ acts → clamped m ≤ (limit : Int)

/-! ## The ring buffers of a program run -/

/-- What a step does to the ring buffers of the `k`-th collector. -/
theorem step_rings {s t : St W A} {act : Act W A} (h : s.step act = some t) :
    s.rings.length ≤ t.rings.length ∧ ∀ k r', t.rings[k]? = some r' →
      (∃ r, s.rings[k]? = some r ∧ (r' = r ∨ ∃ op ds, r.step op = some (r', ds) ∧
        (∀ c, op = .getOrCreate c → act = .getOrCreate k c) ∧
        (∀ c order, op = .beginResize c order → act = .beginResize k c order))) ∨
      (s.rings[k]? = none ∧ ∃ size, act = .newCollector size ∧ r' = Ring.newRBs (if size ≤ 0 then 1000 else size)) := by
  have same : t.rings = s.rings → s.rings.length ≤ t.rings.length ∧ ∀ k r', t.rings[k]? = some r' →
      (∃ r, s.rings[k]? = some r ∧ (r' = r ∨ ∃ op ds, r.step op = some (r', ds) ∧
        (∀ c, op = .getOrCreate c → act = .getOrCreate k c) ∧
        (∀ c order, op = .beginResize c order → act = .beginResize k c order))) ∨
      (s.rings[k]? = none ∧ ∃ size, act = .newCollector size ∧ r' = Ring.newRBs (if size ≤ 0 then 1000 else size)) := by
    intro e
    rw [e]
    exact ⟨Nat.le_refl _, fun k r' h => .inl ⟨r', h, .inl rfl⟩⟩
  have ring : ∀ {s₀ : St W A} {j : Nat} {op : MOp Handle}, s₀.rings = s.rings → s₀.ring j op = some t →
      (∀ c, op = .getOrCreate c → act = .getOrCreate j c) →
      (∀ c order, op = .beginResize c order → act = .beginResize j c order) →
      s.rings.length ≤ t.rings.length ∧ ∀ k r', t.rings[k]? = some r' →
      (∃ r, s.rings[k]? = some r ∧ (r' = r ∨ ∃ op ds, r.step op = some (r', ds) ∧
        (∀ c, op = .getOrCreate c → act = .getOrCreate k c) ∧
        (∀ c order, op = .beginResize c order → act = .beginResize k c order))) ∨
      (s.rings[k]? = none ∧ ∃ size, act = .newCollector size ∧ r' = Ring.newRBs (if size ≤ 0 then 1000 else size)) := by
    intro s₀ j op e h h1 h2
    unfold St.ring at h
    rw [e] at h
    split at h
    · simp only [Option.some.injEq] at h
      subst h
      exact same e
    · rename_i rbs hj
      simp only [Option.bind_eq_bind, Option.bind_eq_some_iff] at h
      obtain ⟨p, hp, h⟩ := h
      simp only [Option.pure_def, Option.some.injEq] at h
      subst h
      refine ⟨by simp, ?_⟩
      intro k r' hk
      simp only [List.getElem?_set] at hk
      by_cases hjk : j = k
      · subst hjk
        have hlt : j < s.rings.length := (List.getElem?_eq_some_iff.mp hj).1
        simp only [if_true, hlt, Option.some.injEq] at hk
        subst hk
        exact .inl ⟨rbs, hj, .inr ⟨op, p.2, hp, h1, h2⟩⟩
      · simp only [hjk, if_false] at hk
        exact .inl ⟨r', hk, .inl rfl⟩
  cases act with
  | set x => simp only [St.step, Option.some.injEq] at h; subst h; exact same rfl
  | newCollector size =>
    simp only [St.step, Option.some.injEq] at h; subst h
    refine ⟨by simp, ?_⟩
    intro k r' hk
    by_cases hlt : k < s.rings.length
    · simp only [List.getElem?_append_left hlt] at hk
      exact .inl ⟨r', hk, .inl rfl⟩
    · simp only [List.getElem?_append_right (Nat.le_of_not_lt hlt)] at hk
      right
      refine ⟨List.getElem?_eq_none (Nat.le_of_not_lt hlt), size, rfl, ?_⟩
      generalize k - s.rings.length = j at hk
      cases j with
      | zero => simpa using hk.symm
      | succ j => simp at hk
  | new k now id source category ch => simp only [St.step, Option.some.injEq] at h; subst h; exact same rfl
  | getOrCreate k category => exact ring rfl h (fun c e => by cases e; rfl) (fun c o e => by cases e)
  | add i =>
    simp only [St.step] at h
    split at h
    · simp only [Option.some.injEq] at h; subst h; exact same rfl
    · split at h
      · simp only [Option.some.injEq] at h; subst h; exact same rfl
      · split at h
        · exact ring (s₀ := { s with inflight := s.inflight.eraseIdx i }) rfl h (fun c e => by cases e) (fun c o e => by cases e)
        · simp only [Option.some.injEq] at h; subst h; exact same rfl
  | beginResize k cap order => exact ring rfl h (fun c e => by cases e) (fun c o e => by cases e; rfl)
  | resizeNext k => exact ring rfl h (fun c e => by cases e) (fun c o e => by cases e)
  | free i =>
    simp only [St.step] at h
    split at h
    · simp only [Option.some.injEq] at h; subst h; exact same rfl
    · simp only [Option.bind_eq_bind, Option.bind_eq_some_iff] at h
      obtain ⟨h', hf, h⟩ := h
      simp only [Option.pure_def, Option.some.injEq] at h
      subst h
      exact same rfl
  | call b env c ch =>
    simp only [St.step] at h
    split at h
    · simp only [Option.bind_eq_bind, Option.bind_eq_some_iff] at h
      obtain ⟨p, hp, h⟩ := h
      simp only [Option.pure_def, Option.some.injEq] at h
      subst h
      exact same rfl
    · simp only [Option.some.injEq] at h; subst h; exact same rfl
  | gcTrace i => simp only [St.step, Option.some.injEq] at h; subst h; exact same rfl
  | gcEvent i => simp only [St.step, Option.some.injEq] at h; subst h; exact same rfl
  | gcStr i => simp only [St.step, Option.some.injEq] at h; subst h; exact same rfl

/-- The steps `ops` of the ring buffers of the `k`-th collector come from steps of the program. -/
def FromActs (k : Nat) (ops : List (MOp Handle)) (acts : List (Act W A)) : Prop :=
  (∀ c, .getOrCreate c ∈ ops → .getOrCreate k c ∈ acts) ∧
  (∀ c order, .beginResize c order ∈ ops → .beginResize k c order ∈ acts)

theorem FromActs.tail {k : Nat} {ops : List (MOp Handle)} {acts : List (Act W A)} (h : FromActs k ops acts) (act : Act W A) :
    FromActs k ops (act :: acts) :=
  ⟨fun c hc => List.mem_cons_of_mem _ (h.1 c hc), fun c o hc => List.mem_cons_of_mem _ (h.2 c o hc)⟩

/-- A run of the program is a run of the ring buffers of each collector, from when the collector was made. -/
theorem run_rings {s t : St W A} {acts : List (Act W A)} (h : s.run acts = some t) :
    s.rings.length ≤ t.rings.length ∧ ∀ k r', t.rings[k]? = some r' →
      ∃ ops ds, FromActs k ops acts ∧
        ((∃ r, s.rings[k]? = some r ∧ r.run ops = some (r', ds)) ∨
         (s.rings[k]? = none ∧ ∃ size, .newCollector size ∈ acts ∧
            (Ring.newRBs (if size ≤ 0 then 1000 else size) : RBs Handle).run ops = some (r', ds))) := by
  induction acts generalizing s with
  | nil =>
    simp only [St.run, Option.some.injEq] at h
    subst h
    exact ⟨Nat.le_refl _, fun k r' hk => ⟨[], [], ⟨by simp, by simp⟩, .inl ⟨r', hk, rfl⟩⟩⟩
  | cons act acts ih =>
    simp only [St.run, Option.bind_eq_bind, Option.bind_eq_some_iff] at h
    obtain ⟨u, hu, h⟩ := h
    obtain ⟨l1, i1⟩ := ih h
    obtain ⟨l2, i2⟩ := step_rings hu
    refine ⟨Nat.le_trans l2 l1, ?_⟩
    intro k r' hk
    obtain ⟨ops, ds, hf, h1⟩ := i1 k r' hk
    rcases h1 with ⟨r, hr, h1⟩ | ⟨hn, size, hm, h1⟩
    · rcases i2 k r hr with ⟨r₀, hr₀, rfl | ⟨op, ds', e, e2, e3⟩⟩ | ⟨hn, size, rfl, rfl⟩
      · exact ⟨ops, ds, hf.tail act, .inl ⟨r, hr₀, h1⟩⟩
      · refine ⟨op :: ops, ds' ++ ds, ⟨?_, ?_⟩, .inl ⟨r₀, hr₀, by simp [RBs.run, e, h1]⟩⟩
        · intro c hc
          rcases List.mem_cons.mp hc with hc | hc
          · rw [e2 c hc.symm]; exact List.mem_cons_self
          · exact List.mem_cons_of_mem _ (hf.1 c hc)
        · intro c o hc
          rcases List.mem_cons.mp hc with hc | hc
          · rw [e3 c o hc.symm]; exact List.mem_cons_self
          · exact List.mem_cons_of_mem _ (hf.2 c o hc)
      · exact ⟨ops, ds, hf.tail _, .inr ⟨hn, size, List.mem_cons_self, h1⟩⟩
    · refine ⟨ops, ds, hf.tail act, .inr ⟨?_, size, List.mem_cons_of_mem _ hm, h1⟩⟩
      have := List.getElem?_eq_none_iff.mp hn
      exact List.getElem?_eq_none (by omega)

/-- What bounds a family. -/
structure FamMax (names : List String) (size : Nat) (f : Ring.Spec.Family Handle) : Prop where
  keys : ∀ k ∈ f.keys, k ∈ names
  cap : f.cap ≤ size
  caps : ∀ k r, f.cat k = some r → r.cap ≤ size

theorem famMax_step {names : List String} {f : Ring.Spec.Family Handle} (h : FamMax names size f)
    (op : MOp Handle) (h1 : ∀ k, op = .getOrCreate k → k ∈ names)
    (h2 : ∀ c order, op = .beginResize c order → c ≤ (size : Int)) : FamMax names size (f.step op).1 := by
  have hupd : ∀ k r, r.cap ≤ size → ∀ k' r', f.upd k r k' = some r' → r'.cap ≤ size := by
    intro k r hr k' r' h'
    rcases Ring.Family_upd_some h' with ⟨_, rfl⟩ | ⟨_, h'⟩
    · exact hr
    · exact h.caps k' r' h'
  cases op with
  | getOrCreate k =>
    simp only [Ring.Spec.Family.step]
    split
    · refine ⟨?_, h.cap, hupd _ _ h.cap⟩
      intro k' hk'
      rcases List.mem_append.mp hk' with hk' | hk'
      · exact h.keys k' hk'
      · rw [List.mem_singleton.mp hk']; exact h1 k rfl
    · exact h
  | add k v =>
    simp only [Ring.Spec.Family.step]
    split
    · exact h
    · rename_i r hr
      exact ⟨h.keys, h.cap, hupd _ _ (h.caps k r hr)⟩
  | beginResize c order =>
    simp only [Ring.Spec.Family.step]
    split
    · exact h
    · have := h2 c order rfl
      exact ⟨h.keys, by simp only; omega, h.caps⟩
  | resizeNext =>
    simp only [Ring.Spec.Family.step]
    split
    · exact h
    · exact ⟨h.keys, h.cap, h.caps⟩
    · rename_i k rest hres
      split
      · exact ⟨h.keys, h.cap, h.caps⟩
      · rename_i r hr
        refine ⟨h.keys, h.cap, hupd _ _ ?_⟩
        unfold Ring.Spec.Recent.resize
        split
        · exact h.caps k r hr
        · simp only [Int.toNat_natCast]; exact h.cap

theorem famMax_run {names : List String} (ops : List (MOp Handle)) {f : Ring.Spec.Family Handle}
    (h : FamMax names size f) (h1 : ∀ k, .getOrCreate k ∈ ops → k ∈ names)
    (h2 : ∀ c order, .beginResize c order ∈ ops → c ≤ (size : Int)) : FamMax names size (f.run ops).1 := by
  induction ops generalizing f with
  | nil => exact h
  | cons op ops ih =>
    exact ih (famMax_step h op (fun k e => h1 k (e ▸ List.mem_cons_self))
      (fun c o e => h2 c o (e ▸ List.mem_cons_self)))
      (fun k hk => h1 k (List.mem_cons_of_mem _ hk)) (fun c o hk => h2 c o (List.mem_cons_of_mem _ hk))

theorem famOK_run {f : Ring.Spec.Family Handle} (h : FamOK f) (ops : List (MOp Handle)) : FamOK (f.run ops).1 := by
  induction ops generalizing f with
  | nil => exact h
  | cons op ops ih => exact ih (Ring.famOK_step h op)

theorem length_flatMap_le {α β : Type} {l : List α} {g : α → List β} {m : Nat} (h : ∀ x ∈ l, (g x).length ≤ m) :
    (l.flatMap g).length ≤ l.length * m := by
  induction l with
  | nil => simp
  | cons x l ih =>
    have h1 := h x (by simp)
    have h2 := ih fun y hy => h y (List.mem_cons_of_mem _ hy)
    simp only [List.flatMap_cons, List.length_append, List.length_cons, Nat.add_mul, Nat.one_mul]
    omega

/-- The number of traces that a collector has. -/
theorem retained_le {names : List String} {m limit : Nat} {acts : List (Act W A)} (hmod : Modest names m limit acts) {s : St W A}
    (hr : St.init.run acts = some s) (k : Nat) : (retainedBy s k).length ≤ names.length * m := by
  unfold retainedBy
  cases hk : s.rings[k]? with
  | none => simp
  | some r' =>
    simp only [Option.map_some, Option.getD_some]
    obtain ⟨ops, ds, hfa, h1⟩ := (run_rings hr).2 k r' hk
    rcases h1 with ⟨r, h1, -⟩ | ⟨-, size, hsz, h1⟩
    · simp [St.init] at h1
    obtain ⟨n, hn, hs⟩ := newRBs_size size
    have hnm : n ≤ m := by
      have := hmod.collectors size hsz
      omega
    obtain ⟨s', he, hf⟩ := Ring.frep_run (Ring.frep_new (α := Handle) n) ops
    rw [hs, he] at h1
    obtain ⟨rfl, _⟩ := Prod.mk.inj (Option.some.inj h1)
    have hmax : FamMax names m (Ring.Spec.Family.new n : Ring.Spec.Family Handle) :=
      ⟨by simp [Ring.Spec.Family.new], hnm, by simp [Ring.Spec.Family.new]⟩
    have hmax := famMax_run ops hmax (fun c hc => hmod.categories k c (hfa.1 c hc))
      (fun c o hc => hmod.sizes k c o (hfa.2 c o hc))
    have hc := Ring.capInv_run (Ring.capInv_new (α := Handle) n) ops
    have ho := famOK_run (Ring.famOK_new (α := Handle) hn) ops
    rw [walked_eq hf]
    revert hmax hc ho
    generalize ((Ring.Spec.Family.new n : Ring.Spec.Family Handle).run ops).1 = f
    intro hmax hc ho
    have hl : f.keys.length ≤ names.length := (List.subperm_of_subset ho.nodup (fun k hk => hmax.keys k hk)).length_le
    refine Nat.le_trans (length_flatMap_le (m := m) ?_) (Nat.mul_le_mul_right m hl)
    intro k _
    unfold Ring.Spec.Family.items
    cases hk : f.cat k with
    | none => simp
    | some r => exact Nat.le_trans (hc.hlen k r hk) (hmax.caps k r hk)

/-! ## The events of a trace -/

theorem getStr_traces (h : Heap A) (c : Option Nat) : (h.getStr c).1.traces = h.traces := by
  unfold Heap.getStr; split <;> rfl

theorem getEvent_traces (h : Heap A) (c : Option Nat) : (h.getEvent c).1.traces = h.traces := by
  unfold Heap.getEvent; split <;> rfl

theorem newCoreEvent_traces (h : Heap A) (ch : Choice) (env : Env W) (flags : UInt8) (format : String)
    (args : List A) (callers : List StdFrame) : (h.newCoreEvent ch env flags format args callers).1.traces = h.traces := by
  unfold Heap.newCoreEvent Heap.newStringer
  simp only [getStr_traces, getEvent_traces]

/-- The limits of an object in memory. -/
def Fits (limit : Nat) (tr : HTrace) : Prop := tr.eventsmax ≤ (limit : Int) ∧ tr.events.length ≤ limit

theorem fits_upd {limit : Nat} {t : Nat → HTrace} (h : ∀ a, Fits limit (t a)) {a : Nat} {tr : HTrace}
    (htr : Fits limit tr) : ∀ b, Fits limit (upd t a tr b) := by
  intro b
  unfold upd
  split
  · exact htr
  · exact h b

theorem fits_logEvent {limit : Nat} {h : Heap A} (hf : ∀ a, Fits limit (h.traces a)) (a : Nat) (ch : Choice) (env : Env W)
    (flags : UInt8) (format : String) (args : List A) (callers : List StdFrame) :
    ∀ b, Fits limit ((h.logEvent a ch env flags format args callers).traces b) := by
  unfold Heap.logEvent
  simp only
  have ha := hf a
  split
  · exact fits_upd hf ha
  · rename_i hlt
    simp only [newCoreEvent_traces]
    refine fits_upd hf ⟨ha.1, ?_⟩
    have := ha.1
    simp only [List.length_append, List.length_singleton]
    omega

theorem fits_log {limit : Nat} {h : Heap A} (hf : ∀ a, Fits limit (h.traces a)) (a : Nat) (ch : Choice) (env : Env W)
    (kind : LogKind) (format : String) (args : List A) (callers : List StdFrame) :
    ∀ b, Fits limit ((h.log a ch env kind format args callers).traces b) := by
  unfold Heap.log
  split
  · exact hf
  · cases kind with
    | tracef => exact fits_logEvent hf a ch env _ format args callers
    | lazyTracef => exact fits_logEvent hf a ch env _ format args callers
    | errorf =>
      exact fits_logEvent (h := { h with traces := upd h.traces a { h.traces a with errored := true } })
        (fits_upd hf (hf a)) a ch env _ format args callers
    | lazyErrorf =>
      exact fits_logEvent (h := { h with traces := upd h.traces a { h.traces a with errored := true } })
        (fits_upd hf (hf a)) a ch env _ format args callers

theorem fits_step {limit : Nat} {s t : St W A} {f : List (Ring.Spec.Family Handle)} (hi : Inv s f)
    (h0 : s.globals.traceMaxEvents ≤ (limit : Int)) (hf : ∀ a, Fits limit (s.heap.traces a)) {act : Act W A}
    (h1 : ∀ m, act = .set (.maxEvents m) → clamped m ≤ (limit : Int))
    (h2 : ∀ a env m ch, act = .call a env (.setMaxEvents m) ch → clamped m ≤ (limit : Int))
    (h : s.step act = some t) :
    t.globals.traceMaxEvents ≤ (limit : Int) ∧ ∀ a, Fits limit (t.heap.traces a) := by
  have ring : ∀ {s₀ : St W A} {k : Nat} {op : MOp Handle}, s₀.heap = s.heap → s₀.globals = s.globals → s₀.ring k op = some t →
      t.globals.traceMaxEvents ≤ (limit : Int) ∧ ∀ a, Fits limit (t.heap.traces a) := by
    intro s₀ k op e1 e2 h
    obtain ⟨_, e3, _, e4⟩ := ring_same h
    rw [e3, e4, e1, e2]
    exact ⟨h0, hf⟩
  cases act with
  | set x =>
    simp only [St.step, Option.some.injEq] at h; subst h
    refine ⟨?_, hf⟩
    cases x with
    | maxEvents m =>
      have := h1 m rfl
      unfold clamped at this
      simp only [Globals.apply, Globals.setTraceMaxEvents, traceMaxEventsMin, traceMaxEventsMax]
      by_cases a : m < 10
      · simp only [a, if_true]; split <;> omega
      · simp only [a, if_false]; split <;> omega
    | stacks b => exact h0
  | newCollector size => simp only [St.step, Option.some.injEq] at h; subst h; exact ⟨h0, hf⟩
  | new k now id source category ch =>
    simp only [St.step, Option.some.injEq] at h; subst h
    refine ⟨h0, ?_⟩
    simp only
    unfold Heap.newCoreTrace
    simp only
    split
    · exact fits_upd hf ⟨h0, by simp⟩
    · refine fits_upd (fits_upd hf ⟨?_, by simp⟩) ⟨h0, by simp⟩
      simp
  | getOrCreate k category => exact ring rfl rfl h
  | add i =>
    simp only [St.step] at h
    split at h
    · simp only [Option.some.injEq] at h; subst h; exact ⟨h0, hf⟩
    · split at h
      · simp only [Option.some.injEq] at h; subst h; exact ⟨h0, hf⟩
      · split at h
        · exact ring (s₀ := { s with inflight := s.inflight.eraseIdx i }) rfl rfl h
        · simp only [Option.some.injEq] at h; subst h; exact ⟨h0, hf⟩
  | beginResize k cap order => exact ring rfl rfl h
  | resizeNext k => exact ring rfl rfl h
  | free i =>
    simp only [St.step] at h
    split at h
    · simp only [Option.some.injEq] at h; subst h; exact ⟨h0, hf⟩
    · rename_i hd _
      simp only [Option.bind_eq_bind, Option.bind_eq_some_iff] at h
      obtain ⟨h', hf', h⟩ := h
      simp only [Option.pure_def, Option.some.injEq] at h
      subst h
      refine ⟨h0, ?_⟩
      by_cases hfin : (s.heap.traces hd.addr).finished = true
      · obtain ⟨h'', e, fr⟩ := free_spec hi.mem hd.addr hfin
        rw [hf'] at e
        obtain rfl := Option.some.inj e
        intro b
        by_cases hb : b = hd.addr
        · subst hb
          simp only [fr.self]
          exact ⟨(hf hd.addr).1, by simp⟩
        · simp only [(fr.other b hb).1]; exact hf b
      · unfold Heap.free at hf'
        simp only [Bool.not_eq_true] at hfin
        simp only [hfin, if_true, Option.some.injEq] at hf'
        subst hf'
        exact hf
  | call a env c ch =>
    simp only [St.step] at h
    split at h
    · simp only [Option.bind_eq_bind, Option.bind_eq_some_iff] at h
      obtain ⟨p, hp, h⟩ := h
      simp only [Option.pure_def, Option.some.injEq] at h
      subst h
      refine ⟨h0, ?_⟩
      simp only
      cases c with
      | log kind format args callers =>
        simp only [Heap.call, Option.some.injEq] at hp; subst hp
        exact fits_log hf a ch env kind format args callers
      | finish =>
        simp only [Heap.call, Option.some.injEq] at hp; subst hp
        simp only [Heap.finish]
        split
        · exact hf
        · exact fits_upd hf (hf a)
      | setMaxEvents m =>
        simp only [Heap.call, Option.some.injEq] at hp; subst hp
        simp only [Heap.setMaxEvents]
        refine fits_upd hf ⟨?_, (hf a).2⟩
        have := h2 a env m ch rfl
        unfold clamped at this
        simp only [traceMaxEventsMin, traceMaxEventsMax]
        by_cases h1 : m < 10
        · simp only [h1, if_true]; omega
        · by_cases h2 : m > 10000
          · simp only [h1, h2, if_true, if_false]; omega
          · simp only [h1, h2, if_false]; omega
      | read n stacks =>
        obtain ⟨sns, h', he, k, -⟩ := eventsDetail_spec hi.mem a env n stacks ch.grow
        simp only [Heap.call] at hp
        rw [he] at hp
        obtain rfl := Option.some.inj hp
        simp only [k.traces]
        exact hf
    · simp only [Option.some.injEq] at h; subst h; exact ⟨h0, hf⟩
  | gcTrace i => simp only [St.step, Option.some.injEq] at h; subst h; exact ⟨h0, hf⟩
  | gcEvent i => simp only [St.step, Option.some.injEq] at h; subst h; exact ⟨h0, hf⟩
  | gcStr i => simp only [St.step, Option.some.injEq] at h; subst h; exact ⟨h0, hf⟩

theorem fits_run {limit : Nat} (acts : List (Act W A)) {s t : St W A} {f : List (Ring.Spec.Family Handle)} (hi : Inv s f)
    (h0 : s.globals.traceMaxEvents ≤ (limit : Int)) (hf : ∀ a, Fits limit (s.heap.traces a))
    (h1 : ∀ m, .set (.maxEvents m) ∈ acts → clamped m ≤ (limit : Int))
    (h2 : ∀ a env m ch, .call a env (.setMaxEvents m) ch ∈ acts → clamped m ≤ (limit : Int))
    (h : s.run acts = some t) : ∀ a, Fits limit (t.heap.traces a) := by
  induction acts generalizing s f with
  | nil => simp only [St.run, Option.some.injEq] at h; subst h; exact hf
  | cons act acts ih =>
    simp only [St.run, Option.bind_eq_bind, Option.bind_eq_some_iff] at h
    obtain ⟨u, hu, h⟩ := h
    obtain ⟨u', f', hu', hi'⟩ := inv_step hi act
    rw [hu] at hu'
    obtain rfl := Option.some.inj hu'
    obtain ⟨g1, g2⟩ := fits_step hi h0 hf (fun m e => h1 m (e ▸ List.mem_cons_self))
      (fun a env m ch e => h2 a env m ch (e ▸ List.mem_cons_self)) hu
    exact ih hi' g1 g2 (fun m hm => h1 m (List.mem_cons_of_mem _ hm))
      (fun a env m ch hm => h2 a env m ch (List.mem_cons_of_mem _ hm)) h

theorem eventsOf_le {limit : Nat} {s : St W A} (hf : ∀ a, Fits limit (s.heap.traces a)) (hds : List Handle) :
    eventsOf s hds ≤ hds.length * limit := by
  unfold eventsOf
  induction hds with
  | nil => simp
  | cons hd hds ih =>
    have := (hf hd.addr).2
    simp only [List.map_cons, List.sum_cons, List.length_cons, Nat.add_mul, Nat.one_mul]
    omega

/-! ## C112 -/

/-- **C112**, the part that holds. However long a program runs and whatever it logs: if the categories it
uses are among `names`, each collector keeps at most `size` traces for each of the names, and at most `limit`
events for each of those traces. (In Go, `size` is 1000 and `limit` 1000 unless changed; no limit can be set
above 10000.) Beside these there are only the traces of calls in progress: those on their way into a
category and those just dropped from one. -/
theorem C112_bounded_partial (names : List String) (size limit : Nat) (hl : 1000 ≤ limit) (acts : List (Act W A))
    (hmod : Modest names size limit acts) (s : St W A) (hr : St.init.run acts = some s) :
    (∀ k, (retainedBy s k).length ≤ names.length * size ∧ eventsOf s (retainedBy s k) ≤ names.length * size * limit) ∧
    eventsOf s (held s) ≤ (s.rings.length * (names.length * size) + s.inflight.length + s.pending.length) * limit := by
  have h1 := retained_le hmod hr
  have hf : ∀ a, Fits limit (s.heap.traces a) := by
    refine fits_run acts inv_init ?_ ?_ hmod.globals hmod.limits hr
    · simp only [St.init, traceMaxEventsDefault]; omega
    · intro a
      simp [St.init, Heap.init, Fits]
  refine ⟨fun k => ⟨h1 k, Nat.le_trans (eventsOf_le hf _) (Nat.mul_le_mul_right _ (h1 k))⟩, Nat.le_trans (eventsOf_le hf _) ?_⟩
  refine Nat.mul_le_mul_right _ ?_
  have h2 : (allRetained s).length ≤ s.rings.length * (names.length * size) := by
    have := length_flatMap_le (l := List.range s.rings.length) (g := retainedBy s) (fun k _ => h1 k)
    simpa [allRetained] using this
  simp only [held, List.length_append, List.length_map]
  omega

/-- No setting at all takes a trace above 10000 events. -/
theorem C112_events_per_trace (acts : List (Act W A)) (s : St W A)
    (hr : St.init.run acts = some s) (a : Nat) : (s.heap.traces a).events.length ≤ 10000 := by
  have hf : ∀ a, Fits 10000 (s.heap.traces a) := by
    refine fits_run acts (inv_init) ?_ ?_ ?_ ?_ hr
    · simp only [St.init, traceMaxEventsDefault]; omega
    · intro a
      simp [St.init, Heap.init, Fits]
    · intro m _; unfold clamped; omega
    · intro _ _ m _ _; unfold clamped; omega
  exact (hf a).2

/-! ## A category is never empty again -/

theorem items_step {f : Ring.Spec.Family Handle} (h : FamOK f) (op : MOp Handle) {k : String} (hk : f.items k ≠ []) :
    (f.step op).1.items k ≠ [] := by
  have hupd : ∀ k' r, r.items ≠ [] → ∀ g : Ring.Spec.Family Handle, g.cat = f.upd k' r → g.items k ≠ [] := by
    intro k' r hr g hg
    unfold Ring.Spec.Family.items
    rw [hg]
    unfold Ring.Spec.Family.upd
    by_cases hkk : k' = k
    · simp only [hkk, if_true]; exact hr
    · simp only [hkk, if_false]; exact hk
  cases op with
  | getOrCreate k' =>
    simp only [Ring.Spec.Family.step]
    split
    · rename_i h1 h2
      unfold Ring.Spec.Family.items Ring.Spec.Family.upd
      by_cases hkk : k' = k
      · subst hkk
        exfalso
        apply hk
        unfold Ring.Spec.Family.items
        rw [h2]
      · simp only [hkk, if_false]; exact hk
    · exact hk
  | add k' v =>
    simp only [Ring.Spec.Family.step]
    split
    · exact hk
    · rename_i r hr
      refine hupd k' _ ?_ _ rfl
      have := h.caps k' r hr
      simp only [Ring.Spec.Recent.add]
      intro hh
      rw [List.take_eq_nil_iff] at hh
      rcases hh with hh | hh
      · omega
      · cases hh
  | beginResize c order =>
    simp only [Ring.Spec.Family.step]
    split <;> exact hk
  | resizeNext =>
    simp only [Ring.Spec.Family.step]
    split
    · exact hk
    · exact hk
    · rename_i k' rest _
      split
      · exact hk
      · rename_i r hr
        by_cases hkk : k' = k
        · refine hupd k' _ ?_ _ rfl
          subst hkk
          unfold Ring.Spec.Family.items at hk
          rw [hr] at hk
          rw [Ring.Recent_resize_pos r f.cap h.cap]
          intro hh
          rw [List.take_eq_nil_iff] at hh
          have := h.cap
          rcases hh with hh | hh
          · omega
          · exact hk hh
        · unfold Ring.Spec.Family.items Ring.Spec.Family.upd
          simp only [hkk, if_false]; exact hk

theorem items_run {f : Ring.Spec.Family Handle} (h : FamOK f) (ops : List (MOp Handle)) {k : String} (hk : f.items k ≠ []) :
    (f.run ops).1.items k ≠ [] := by
  induction ops generalizing f with
  | nil => exact hk
  | cons op ops ih => exact ih (Ring.famOK_step h op) (items_step h op hk)

/-- The traces of a category of the `k`-th collector. -/
def inCategory (s : St W A) (k : Nat) (c : String) : List Handle := (s.rings[k]?.bind (·.contents c)).getD []

theorem inCategory_eq {s : St W A} {k : Nat} {r : RBs Handle} (hk : s.rings[k]? = some r) {f : Ring.Spec.Family Handle}
    (h : FRep r f) (c : String) : inCategory s k c = f.items c := by
  unfold inCategory
  rw [hk, Option.bind_some, h.contents]
  rfl

/-- **C112**: a category that ever had a trace has one forever, whatever the program does, including every
change of the category size. -/
theorem C112_never_empty_again (before after : List (Act W A)) (s t : St W A)
    (hs : St.init.run before = some s) (ht : s.run after = some t) (k : Nat) (c : String) (hk : inCategory s k c ≠ []) :
    inCategory t k c ≠ [] := by
  obtain ⟨f, h2⟩ := init_inv_run hs
  cases hr : s.rings[k]? with
  | none => simp [inCategory, hr] at hk
  | some r =>
    obtain ⟨g, hg, hfr, hfo⟩ := h2.rep hr
    obtain ⟨l1, l2⟩ := run_rings ht
    have hlt : k < t.rings.length := Nat.lt_of_lt_of_le (List.getElem?_eq_some_iff.mp hr).1 l1
    obtain ⟨ops, ds, -, h3⟩ := l2 k _ (List.getElem?_eq_getElem hlt)
    rcases h3 with ⟨r₁, e1, h3⟩ | ⟨e1, -⟩
    · rw [hr] at e1
      obtain rfl := Option.some.inj e1
      obtain ⟨r', h4, h5⟩ := Ring.frep_run hfr ops
      rw [h3] at h4
      obtain ⟨h4, _⟩ := Prod.mk.inj (Option.some.inj h4)
      rw [← h4] at h5
      rw [inCategory_eq hr hfr] at hk
      rw [inCategory_eq (List.getElem?_eq_getElem hlt) h5]
      exact items_run hfo ops hk
    · rw [hr] at e1; cases e1

/-! ## Any number of categories -/

/-- One request: a trace is created, put into its category, and finished. -/
def request (env : Env W) (n : Nat) (category : String) : List (Act W A) :=
  [.new 0 env.now category "src" category {}, .getOrCreate 0 category, .add 0, .call n env .finish {}]

/-- Requests one after the other, the first of which is the `n`-th. -/
def requests (env : Env W) : Nat → List String → List (Act W A)
  | _, [] => []
  | n, k :: ks => request env n k ++ requests env (n + 1) ks

/-- After the requests for `ks`. -/
structure Served (s : St W A) (ks : List String) : Prop where
  ex : ∃ r f, s.rings = [r] ∧ FRep r f ∧ FamOK f ∧ f.resizing = none ∧ ∀ k ∈ ks, f.items k ≠ []
  inflight : s.inflight = []
  next : s.heap.nextT = ks.length
  new : s.heap.n.traceNew = ks.length
  fin : ∀ a, a < s.heap.nextT → (s.heap.traces a).finished = true

/-- What a new trace from an empty choice is. -/
theorem newCoreTrace_none (h : Heap A) (g : Globals) (now : Time) (id source category : String) :
    (h.newCoreTrace g none now id source category).2 = h.nextT ∧
    (h.newCoreTrace g none now id source category).1.nextT = h.nextT + 1 ∧
    (h.newCoreTrace g none now id source category).1.n.traceNew = h.n.traceNew + 1 ∧
    ∀ a, a ≠ h.nextT → (h.newCoreTrace g none now id source category).1.traces a = h.traces a := by
  refine ⟨rfl, rfl, rfl, ?_⟩
  intro a ha
  simp only [Heap.newCoreTrace, choose]
  rw [upd_ne _ _ ha, upd_ne _ _ ha]

theorem served_request {s : St W A} {ks : List String} (h : Served s ks) (env : Env W) (k : String) :
    ∃ t, s.run (request env ks.length k) = some t ∧ Served t (ks ++ [k]) := by
  obtain ⟨⟨r₁, f, h0, h1, h2, h3, h4⟩, hin, hnext, hnew, hfin⟩ := h
  obtain ⟨e1, e2, e3, e4⟩ := newCoreTrace_none s.heap s.globals env.now k "src" k
  -- the trace is created
  obtain ⟨s₁, hs₁, a1, a2, a3⟩ : ∃ s₁ : St W A, s.step (.new 0 env.now k "src" k {}) = some s₁ ∧
      s₁.heap = (s.heap.newCoreTrace s.globals none env.now k "src" k).1 ∧
      s₁.inflight = [(⟨s.heap.nextT, s.heap.n.traceNew⟩, 0, k)] ∧ s₁.rings = [r₁] := by
    refine ⟨_, rfl, rfl, ?_, h0⟩
    simp only [hin, List.nil_append]
    rfl
  generalize (s.heap.newCoreTrace s.globals none env.now k "src" k).1 = heap at *
  -- its category exists
  obtain ⟨r₂, b1, b2⟩ := Ring.frep_step h1 (.getOrCreate k)
  have f2 := Ring.famOK_step h2 (.getOrCreate k)
  have g2 : ∃ r, (f.step (.getOrCreate k)).1.cat k = some r := by
    simp only [Ring.Spec.Family.step]
    split
    · refine ⟨{ cap := f.cap, items := [] }, ?_⟩
      simp [Ring.Spec.Family.upd]
    · rename_i hno
      cases hk : f.cat k with
      | none => exact (hno h3 hk).elim
      | some r => exact ⟨r, rfl⟩
  have r2 : (f.step (.getOrCreate k)).1.resizing = none := by
    simp only [Ring.Spec.Family.step]
    split <;> exact h3
  have i2 : ∀ k' ∈ ks, (f.step (.getOrCreate k)).1.items k' ≠ [] := fun k' hk' => items_step h2 _ (h4 k' hk')
  generalize (f.step (.getOrCreate k)).2 = d₂ at *
  generalize (f.step (.getOrCreate k)).1 = f₂ at *
  obtain ⟨s₂, hs₂, c1, c2, c3⟩ : ∃ s₂ : St W A, s₁.step (.getOrCreate 0 k) = some s₂ ∧ s₂.heap = heap ∧
      s₂.inflight = [(⟨s.heap.nextT, s.heap.n.traceNew⟩, 0, k)] ∧ s₂.rings = [r₂] := by
    refine ⟨{ s₁ with rings := [r₂], pending := s₁.pending ++ d₂ }, ?_, a1, a2, rfl⟩
    simp only [St.step, St.ring, a3, List.getElem?_cons_zero, List.set_cons_zero, b1, Option.bind_eq_bind, Option.bind_some, Option.pure_def]
  -- the trace is added
  obtain ⟨r₃, b3, b4⟩ := Ring.frep_step b2 (.add k ⟨s.heap.nextT, s.heap.n.traceNew⟩)
  have f3 := Ring.famOK_step f2 (.add k ⟨s.heap.nextT, s.heap.n.traceNew⟩)
  obtain ⟨r, hr⟩ := g2
  have i3 : ∀ k' ∈ ks ++ [k], (f₂.step (.add k ⟨s.heap.nextT, s.heap.n.traceNew⟩)).1.items k' ≠ [] := by
    intro k' hk'
    rcases List.mem_append.mp hk' with hk' | hk'
    · exact items_step f2 _ (i2 k' hk')
    · obtain rfl := List.mem_singleton.mp hk'
      simp only [Ring.Spec.Family.step, hr]
      unfold Ring.Spec.Family.items Ring.Spec.Family.upd
      simp only [if_true, Ring.Spec.Recent.add]
      intro hh
      have := f2.caps k' r hr
      rw [List.take_eq_nil_iff] at hh
      rcases hh with hh | hh
      · omega
      · cases hh
  have r3 : (f₂.step (.add k ⟨s.heap.nextT, s.heap.n.traceNew⟩)).1.resizing = none := by
    simp only [Ring.Spec.Family.step, hr, r2]
  generalize (f₂.step (.add k ⟨s.heap.nextT, s.heap.n.traceNew⟩)).2 = d₃ at *
  generalize (f₂.step (.add k ⟨s.heap.nextT, s.heap.n.traceNew⟩)).1 = f₃ at *
  have hfind : (r₂.bufs.find k).isSome = true := by
    cases hb : r₂.bufs.find k with
    | none => rw [b2.isNone hb] at hr; cases hr
    | some rb => rfl
  obtain ⟨s₃, hs₃, d1, d2, d3⟩ : ∃ s₃ : St W A, s₂.step (.add 0) = some s₃ ∧ s₃.heap = heap ∧
      s₃.inflight = [] ∧ s₃.rings = [r₃] := by
    refine ⟨{ s₂ with inflight := [], rings := [r₃], pending := s₂.pending ++ d₃ }, ?_, c1, rfl, rfl⟩
    simp only [St.step, c2, c3, List.getElem?_cons_zero, hfind, if_true, List.eraseIdx_cons_zero, St.ring, List.set_cons_zero]
    simp only [b3, Option.bind_eq_bind, Option.bind_some, Option.pure_def]
  -- the trace is finished
  have hlt : ks.length < s₃.heap.nextT := by rw [d1, e2]; omega
  obtain ⟨s₄, hs₄, k1, k2, k3⟩ : ∃ s₄ : St W A, s₃.step (.call ks.length env .finish {}) = some s₄ ∧
      s₄.heap = heap.finish ks.length env.now ∧ s₄.inflight = [] ∧ s₄.rings = [r₃] := by
    simp only [St.step, hlt, if_true, Heap.call, Option.bind_eq_bind, Option.bind_some]
    refine ⟨_, rfl, ?_, d2, d3⟩
    simp only [d1]
  refine ⟨s₄, by simp [request, St.run, hs₁, hs₂, hs₃, hs₄], ⟨r₃, f₃, k3, b4, f3, r3, i3⟩, k2, ?_, ?_, ?_⟩
  · rw [k1]; unfold Heap.finish; simp only; split <;> simp [e2, hnext]
  · rw [k1]; unfold Heap.finish; simp only; split <;> simp [e3, hnew]
  · intro a ha
    have ha' : a < ks.length + 1 := by
      rw [k1] at ha; unfold Heap.finish at ha; simp only at ha
      split at ha <;> (simp only [e2] at ha; omega)
    rw [k1]
    unfold Heap.finish
    simp only
    by_cases haa : a = ks.length
    · subst haa
      split
      · assumption
      · simp [upd_same]
    · have : (heap.traces a).finished = true := by
        rw [e4 a (by omega)]
        exact hfin a (by omega)
      split
      · exact this
      · simp only [upd_ne _ _ haa]; exact this

theorem served_requests (env : Env W) (ks : List String) {s : St W A} {ks₀ : List String} (h : Served s ks₀) :
    ∃ t, s.run (requests env ks₀.length ks) = some t ∧ Served t (ks₀ ++ ks) := by
  induction ks generalizing s ks₀ with
  | nil => exact ⟨s, rfl, by simpa using h⟩
  | cons k ks ih =>
    obtain ⟨t, h1, h2⟩ := served_request h env k
    obtain ⟨u, h3, h4⟩ := ih h2
    refine ⟨u, ?_, by simpa using h4⟩
    simp only [requests]
    rw [run_append', h1]
    simpa using h3

/-- A program with one collector. -/
theorem served_init (size : Int) : ∃ s : St W A, St.init.step (.newCollector size) = some s ∧ Served s [] := by
  obtain ⟨n, hn, hs⟩ := newRBs_size size
  refine ⟨_, rfl, ⟨_, Ring.Spec.Family.new n, rfl, ?_, Ring.famOK_new hn, rfl, by simp⟩, rfl, rfl, rfl, by simp [St.init, Heap.init]⟩
  rw [hs]
  exact Ring.frep_new n

theorem length_flatMap_ge {α β : Type} {l : List α} {g : α → List β} (h : ∀ x ∈ l, g x ≠ []) :
    l.length ≤ (l.flatMap g).length := by
  induction l with
  | nil => simp
  | cons x l ih =>
    have h1 := List.length_pos_of_ne_nil (h x (by simp))
    have h2 := ih fun y hy => h y (List.mem_cons_of_mem _ hy)
    simp only [List.flatMap_cons, List.length_append, List.length_cons]
    omega

theorem length_flatMap_sublist {α β : Type} {l m : List α} (h : l.Sublist m) {g : α → List β} :
    (l.flatMap g).length ≤ (m.flatMap g).length := by
  induction h with
  | slnil => simp
  | cons x _ ih => simp only [List.flatMap_cons, List.length_append]; omega
  | cons_cons x _ ih => simp only [List.flatMap_cons, List.length_append]; omega

/-- Distinct categories that have traces have together at least as many traces. -/
theorem retained_ge {s : St W A} {f : List (Ring.Spec.Family Handle)} (hi : Inv s f) (k : Nat) {cs : List String} (hcs : cs.Nodup)
    (h : ∀ c ∈ cs, inCategory s k c ≠ []) : cs.length ≤ (retainedBy s k).length := by
  cases hk : s.rings[k]? with
  | none =>
    cases cs with
    | nil => simp
    | cons c cs => exact absurd (by simp [inCategory, hk]) (h c (by simp))
  | some r =>
    obtain ⟨g, hg, hfr, hfo⟩ := hi.rep hk
    have hsub : cs ⊆ r.bufs.keys := by
      intro c hc
      apply Classical.byContradiction
      intro hn
      apply h c hc
      have := (Ring.Assoc.find_none_iff _ _).mpr hn
      simp [inCategory, hk, RBs.contents, RBs.buf, this]
    obtain ⟨l, hl, hsl⟩ := List.subperm_of_subset hcs hsub
    have h1 : (cs.flatMap (inCategory s k)).length ≤ (retainedBy s k).length := by
      rw [(hl.flatMap_right (inCategory s k)).length_eq.symm]
      have : retainedBy s k = r.bufs.keys.flatMap (inCategory s k) := by
        unfold retainedBy inCategory walked
        simp [hk]
      rw [this]
      exact length_flatMap_sublist hsl
    exact Nat.le_trans (length_flatMap_ge h) h1

/-- **C112**: what a collector keeps is not bounded by its settings. For any category size and any distinct
names, requests with these names as categories, each finished before the next begins, are all kept; and at
least as many traces are kept ever after, whatever the program does. -/
theorem C112_categories (size : Int) (names : List String) (hn : names.Nodup) (env : Env W) :
    ∃ s : St W A, St.init.run (.newCollector size :: requests env 0 names) = some s ∧
      (retainedBy s 0).length = names.length ∧ s.inflight = [] ∧
      (∀ hd ∈ held s, (s.heap.traces hd.addr).finished = true) ∧
      ∀ after t, s.run after = some t → names.length ≤ (retainedBy t 0).length := by
  obtain ⟨s₀, h0, h0'⟩ := served_init (W := W) (A := A) size
  obtain ⟨s, h1, h2⟩ := served_requests env names h0'
  simp only [List.length_nil, List.nil_append] at h1 h2
  have h1 : St.init.run (.newCollector size :: requests env 0 names) = some s := by
    simp only [St.run, h0, Option.bind_eq_bind, Option.bind_some]; exact h1
  obtain ⟨r, f, g0, g1, g2, g3, g4⟩ := h2.ex
  obtain ⟨f', i2⟩ := init_inv_run h1
  have hcat : ∀ c ∈ names, inCategory s 0 c ≠ [] := by
    intro c hc; rw [inCategory_eq (r := r) (by rw [g0]; rfl) g1]; exact g4 c hc
  have hle : (retainedBy s 0).length ≤ names.length := by
    have := i2.count
    rw [h2.new, ← held_eq i2] at this
    have e : allRetained s = retainedBy s 0 := by
      simp [allRetained, g0, List.range_succ]
    simp only [held, List.length_append, e] at this
    omega
  refine ⟨s, h1, Nat.le_antisymm hle (retained_ge i2 0 hn hcat), h2.inflight, ?_, ?_⟩
  · intro hd hhd
    have hp : hd ∈ places s f' := held_eq i2 ▸ hhd
    obtain ⟨gh, hgh, _⟩ := i2.plive hd hp
    exact h2.fin _ (i2.lt _ _ hgh)
  · intro after t ht
    obtain ⟨t', f'', j1, j2⟩ := inv_run i2 after
    rw [ht] at j1
    obtain rfl := Option.some.inj j1
    exact retained_ge j2 0 hn fun c hc => C112_never_empty_again _ after s t h1 ht 0 c (hcat c hc)

/-- The category that README.md:26-28 gives to a request for the path of `n` slashes. -/
def slashes (n : Nat) : String := "GET " ++ String.ofList (List.replicate n '/')

theorem slashes_inj {m n : Nat} (h : slashes m = slashes n) : m = n := by
  have := congrArg String.length h
  simpa [slashes] using this

/-- **C112** does not hold: there is no bound on what a collector keeps, whatever the category size, though every
trace is finished and every setting is left alone; and no later call makes the program let go of them. -/
theorem C112_unbounded_violated (size : Int) (env : Env W) (bound : Nat) :
    ∃ (acts : List (Act W A)) (s : St W A), St.init.run (.newCollector size :: acts) = some s ∧
      (∀ hd ∈ held s, (s.heap.traces hd.addr).finished = true) ∧
      ∀ after t, s.run after = some t → bound < (retainedBy t 0).length := by
  have hn : ((List.range (bound + 1)).map slashes).Nodup :=
    List.Nodup.map (fun a b h => slashes_inj h) List.nodup_range
  obtain ⟨s, h1, h2, h3, h4, h5⟩ := C112_categories (W := W) (A := A) size _ hn env
  refine ⟨_, s, h1, h4, ?_⟩
  intro after t ht
  have := h5 after t ht
  simp only [List.length_map, List.length_range] at this
  omega

private instance : Sys Unit Nat := ⟨fun _ f args => f ++ toString args⟩

private def exEnv : Env Unit := { now := { wall := 0, mono := none }, w := () }

/-- Two collectors of two categories of at most two traces: four requests for the one category, one for the other, an
event in the last; and one trace in the other collector. -/
private def exModest : List (Act Unit Nat) :=
  .newCollector 2 :: requests exEnv 0 ["a", "a", "b", "a"] ++
    [.beginResize 0 1 ["b", "a"], .resizeNext 0, .resizeNext 0, .resizeNext 0, .new 0 exEnv.now "" "" "a" {}, .add 0,
     .call 4 exEnv (.log .tracef "x" [] []) {}, .set (.maxEvents 5), .call 4 exEnv (.setMaxEvents 50) {},
     .newCollector 1, .new 1 exEnv.now "" "" "b" {}, .getOrCreate 1 "b", .add 0]

/-- The hypotheses of `C112_bounded_partial` can be met, and the bounds are not far off. -/
example : Modest ["a", "b"] 2 1000 exModest ∧
    (St.init.run exModest).map (fun s => ((retainedBy s 0).length, (retainedBy s 1).length, eventsOf s (retainedBy s 0),
      s.pending.length)) = some (2, 1, 1, 3) := by
  refine ⟨⟨?_, ?_, ?_, ?_, ?_⟩, rfl⟩
  · intro k c hk
    simp [exModest, requests, request] at hk
    rcases hk with ⟨-, h⟩ | ⟨-, h⟩ | ⟨-, h⟩ | ⟨-, h⟩ <;> simp [h]
  · intro c h
    simp [exModest, requests, request] at h
    rcases h with rfl | rfl <;> simp
  · intro k c order h
    simp [exModest, requests, request] at h
    omega
  · intro m h
    simp [exModest, requests, request] at h
    subst h; decide
  · intro a env m ch h
    simp [exModest, requests, request] at h
    obtain ⟨-, -, rfl, -⟩ := h
    decide

/-- Before the resize, both categories are full or nearly so: three of at most four traces. -/
example : (St.init.run (.newCollector 2 :: requests exEnv 0 ["a", "a", "b", "a"])).map
    (fun s : St Unit Nat => (retainedBy s 0).length) = some 3 := by
  rfl

end Trc.Heap
