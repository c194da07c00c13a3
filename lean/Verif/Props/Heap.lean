import Verif.Heap.Sys
import Verif.Props.Core

/-!
# C17, C19-C23: pooled traces under collectors

All theorems are about `St.run` from program start, for any number of collectors of any size, every list
of steps (creations, additions, resizes, frees, calls through any pointer, garbage collection) and
every choice of pooled object.  The *held* traces are those the collectors still refer to: on
their way in, retained in a category, or dropped but not yet freed.
-/

set_option linter.unusedSectionVars false
set_option linter.unusedVariables false
set_option linter.unusedSimpArgs false

namespace Trc.Heap

open Trc.Core Trc.Core.Spec
open Trc.Ring (RBs MOp FRep FamOK)

variable {W A : Type} [Sys W A]

/-! ## Statements in terms of what is observable -/

/-- The calls made on the object at `a`. -/
def callsAt (a : Nat) : List (Act W A) → Hist W A
  | [] => []
  | .call b env c _ :: acts => if b = a then (env, c) :: callsAt a acts else callsAt a acts
  | _ :: acts => callsAt a acts

/-- The traces that a walk over all categories of a collector visits. -/
def walked (rbs : RBs Handle) : List Handle := rbs.bufs.keys.flatMap fun k => (rbs.contents k).getD []

/-- The traces that the `k`-th collector has. -/
def retainedBy (s : St W A) (k : Nat) : List Handle := (s.rings[k]?.map walked).getD []

/-- The traces that all the collectors have. -/
def allRetained (s : St W A) : List Handle := (List.range s.rings.length).flatMap (retainedBy s)

/-- The traces the collectors refer to. -/
def held (s : St W A) : List Handle := s.inflight.map Prod.fst ++ allRetained s ++ s.pending

/-- A trace value that was only ever used by the given calls. -/
def private_ (g : Globals) (now : Time) (id source category : String) (h : Hist W A) : Option (CoreTrace A) :=
  (Core.newCoreTrace g now id source category zeroTrace).run h

/-! ## Auxiliary facts -/

theorem walked_eq {r : RBs Handle} {g : Ring.Spec.Family Handle} (h : FRep r g) : walked r = g.retained := by
  unfold walked Ring.Spec.Family.retained
  rw [h.hkeys]
  congr 1
  funext k
  rw [h.contents]
  rfl

theorem flatMap_range {α β : Type} (l : List α) (g : α → List β) :
    ((List.range l.length).flatMap fun k => (l[k]?.map g).getD []) = l.flatMap g := by
  induction l with
  | nil => rfl
  | cons a l ih =>
    simp only [List.length_cons, List.range_succ_eq_map, List.flatMap_cons, List.flatMap_map, List.getElem?_cons_zero,
      Option.map_some, Option.getD_some, List.getElem?_cons_succ, ih]

theorem allRetained_eq (s : St W A) : allRetained s = s.rings.flatMap walked := flatMap_range s.rings walked

theorem flatMap_walked {l : List (RBs Handle)} {f : List (Ring.Spec.Family Handle)} (hl : l.length = f.length)
    (h : ∀ (k : Nat) r g, l[k]? = some r → f[k]? = some g → FRep r g) : l.flatMap walked = f.flatMap (·.retained) := by
  induction l generalizing f with
  | nil => cases f with
    | nil => rfl
    | cons _ _ => simp at hl
  | cons r l ih => cases f with
    | nil => simp at hl
    | cons g f =>
      simp only [List.flatMap_cons]
      rw [walked_eq (h 0 r g rfl rfl), ih (by simpa using hl) (fun k r' g' h1 h2 => h (k + 1) r' g' (by simpa using h1) (by simpa using h2))]

theorem held_eq {s : St W A} {f : List (Ring.Spec.Family Handle)} (h : Inv s f) : held s = places s f := by
  unfold held places
  rw [allRetained_eq, flatMap_walked h.flen h.frep]

theorem ring_same {s s' : St W A} {k : Nat} {op : MOp Handle} (h : s.ring k op = some s') :
    s'.ghost = s.ghost ∧ s'.heap = s.heap ∧ s'.reads = s.reads ∧ s'.globals = s.globals := by
  unfold St.ring at h
  split at h
  · simp only [Option.some.injEq] at h; subst h; exact ⟨rfl, rfl, rfl, rfl⟩
  · rename_i rbs _
    cases hs : rbs.step op with
    | none => simp [hs] at h
    | some p =>
      simp only [hs, Option.bind_eq_bind, Option.bind_some, Option.pure_def, Option.some.injEq] at h
      subst h
      exact ⟨rfl, rfl, rfl, rfl⟩

theorem callsAt_append (a : Nat) (x y : List (Act W A)) : callsAt a (x ++ y) = callsAt a x ++ callsAt a y := by
  induction x with
  | nil => rfl
  | cons act x ih =>
    cases act <;> simp [callsAt, ih]
    split <;> simp

/-- One step, seen from a live object: it stays live and gets the calls made on it, or it is
freed after it was finished. -/
theorem step_live {s s' : St W A} {f : List (Ring.Spec.Family Handle)} (h : Inv s f) {act : Act W A}
    (he : s.step act = some s') {a : Nat} {gh : Ghost W A} (hg : s.ghost a = some gh) :
    (∃ gh', s'.ghost a = some gh' ∧ gh'.cid = gh.cid ∧ gh'.fresh = gh.fresh ∧
      gh'.hist = gh.hist ++ callsAt a [act]) ∨
    (s'.ghost a = none ∧ (s.heap.traces a).finished = true ∧ ∃ i hd, act = .free i ∧ s.pending[i]? = some hd ∧ hd.addr = a) := by
  have keep : s'.ghost = s.ghost → callsAt a [act] = [] →
      ∃ gh', s'.ghost a = some gh' ∧ gh'.cid = gh.cid ∧ gh'.fresh = gh.fresh ∧
        gh'.hist = gh.hist ++ callsAt a [act] := by
    intro h1 h2
    exact ⟨gh, by rw [h1]; exact hg, rfl, rfl, by rw [h2]; simp⟩
  cases act with
  | set x => simp [St.step] at he; subst he; exact .inl (keep rfl rfl)
  | newCollector size => simp [St.step] at he; subst he; exact .inl (keep rfl rfl)
  | new k now id source category ch =>
    left
    simp only [St.step, Option.some.injEq] at he
    subst he
    have n := newCoreTrace_spec h.mem (fun a ha => h.dead a (h.tpDead a ha).2)
      (fun a ha => h.dead a (by
        cases hg : s.ghost a with
        | none => rfl
        | some gh => have := h.lt a gh hg; omega)) s.globals ch.trace now id source category
    refine ⟨gh, ?_, rfl, rfl, by simp [callsAt]⟩
    simp only
    rw [upd_ne]
    · exact hg
    · intro hh
      rcases n.taken with ⟨h1, _, _⟩ | ⟨h1, _, _⟩
      · rw [← hh] at h1
        have := (h.tpDead a h1).2
        rw [hg] at this; cases this
      · rw [← hh] at h1
        have := h.lt a gh hg
        omega
  | getOrCreate k category => exact .inl (keep (ring_same he).1 rfl)
  | add i =>
    left
    simp only [St.step] at he
    split at he
    · simp only [Option.some.injEq] at he; subst he; exact keep rfl rfl
    · split at he
      · simp only [Option.some.injEq] at he; subst he; exact keep rfl rfl
      · split at he
        · exact keep (ring_same he).1 rfl
        · simp only [Option.some.injEq] at he; subst he; exact keep rfl rfl
  | beginResize k cap order => exact .inl (keep (ring_same he).1 rfl)
  | resizeNext k => exact .inl (keep (ring_same he).1 rfl)
  | free i =>
    simp only [St.step] at he
    cases hi : s.pending[i]? with
    | none => rw [hi] at he; simp only [Option.some.injEq] at he; subst he; exact .inl (keep rfl rfl)
    | some hd =>
      rw [hi] at he
      simp only at he
      cases hf : s.heap.free hd.addr with
      | none => simp [hf] at he
      | some h' =>
        simp only [hf, Option.bind_eq_bind, Option.bind_some, Option.pure_def, Option.some.injEq] at he
        subst he
        by_cases hfin : (s.heap.traces hd.addr).finished = true
        · by_cases ha : hd.addr = a
          · right
            refine ⟨?_, by rw [← ha]; exact hfin, i, hd, rfl, hi, ha⟩
            simp only [hfin, if_true]
            rw [ha]; exact upd_same _ _ _
          · left
            refine ⟨gh, ?_, rfl, rfl, by simp [callsAt]⟩
            simp only [hfin, if_true]
            rw [upd_ne _ _ (Ne.symm ha)]; exact hg
        · left
          refine keep ?_ rfl
          simp [hfin]
  | call b env c ch =>
    left
    by_cases hb : b < s.heap.nextT
    · obtain ⟨s₁, p, h1, _, _, _, _, _, h7⟩ := inv_call h b env c ch hb
      rw [h1] at he
      obtain rfl := Option.some.inj he
      rw [h7]
      by_cases hba : b = a
      · subst hba
        refine ⟨{ gh with hist := gh.hist ++ [(env, c)] }, ?_, rfl, rfl, ?_⟩
        · rw [upd_same, hg]; rfl
        · simp [callsAt]
      · refine ⟨gh, ?_, rfl, rfl, by simp [callsAt, hba]⟩
        rw [upd_ne _ _ (Ne.symm hba)]; exact hg
    · have hba : b ≠ a := by
        intro hh; subst hh
        exact hb (h.lt _ gh hg)
      simp only [St.step, if_neg hb, Option.some.injEq] at he
      subst he
      exact keep rfl (by simp [callsAt, hba])
  | gcTrace i => simp [St.step] at he; subst he; exact .inl (keep rfl rfl)
  | gcEvent i => simp [St.step] at he; subst he; exact .inl (keep rfl rfl)
  | gcStr i => simp [St.step] at he; subst he; exact .inl (keep rfl rfl)

/-- One step, seen from an object that is not in use: it stays so, or is taken by a new trace. -/
theorem step_dead {s s' : St W A} {f : List (Ring.Spec.Family Handle)} (h : Inv s f) {act : Act W A}
    (he : s.step act = some s') :
    s.heap.n.traceNew ≤ s'.heap.n.traceNew ∧
    ∀ a, s.ghost a = none → ∀ gh, s'.ghost a = some gh → s.heap.n.traceNew ≤ gh.cid := by
  have keep : s'.ghost = s.ghost → s'.heap.n.traceNew = s.heap.n.traceNew →
      s.heap.n.traceNew ≤ s'.heap.n.traceNew ∧
      ∀ a, s.ghost a = none → ∀ gh, s'.ghost a = some gh → s.heap.n.traceNew ≤ gh.cid := by
    intro h1 h2
    refine ⟨by omega, ?_⟩
    intro a ha gh hg
    rw [h1, ha] at hg; cases hg
  cases act with
  | set x => simp [St.step] at he; subst he; exact keep rfl rfl
  | newCollector size => simp [St.step] at he; subst he; exact keep rfl rfl
  | new k now id source category ch =>
    simp only [St.step, Option.some.injEq] at he
    have n := newCoreTrace_spec h.mem (fun a ha => h.dead a (h.tpDead a ha).2)
      (fun a ha => h.dead a (by
        cases hg : s.ghost a with
        | none => rfl
        | some gh => have := h.lt a gh hg; omega)) s.globals ch.trace now id source category
    subst he
    refine ⟨?_, ?_⟩
    · simp only; rw [n.counters.1]; exact Nat.le_succ _
    · intro a ha gh hg
      simp only [upd] at hg
      split at hg
      · obtain rfl := Option.some.inj hg; exact Nat.le_refl _
      · rw [ha] at hg; cases hg
  | getOrCreate k category => exact keep (ring_same he).1 (by rw [(ring_same he).2.1])
  | add i =>
    simp only [St.step] at he
    split at he
    · simp only [Option.some.injEq] at he; subst he; exact keep rfl rfl
    · split at he
      · simp only [Option.some.injEq] at he; subst he; exact keep rfl rfl
      · split at he
        · exact keep (ring_same he).1 (by rw [(ring_same he).2.1])
        · simp only [Option.some.injEq] at he; subst he; exact keep rfl rfl
  | beginResize k cap order => exact keep (ring_same he).1 (by rw [(ring_same he).2.1])
  | resizeNext k => exact keep (ring_same he).1 (by rw [(ring_same he).2.1])
  | free i =>
    simp only [St.step] at he
    cases hi : s.pending[i]? with
    | none => rw [hi] at he; simp only [Option.some.injEq] at he; subst he; exact keep rfl rfl
    | some hd =>
      rw [hi] at he
      simp only at he
      by_cases hfin : (s.heap.traces hd.addr).finished = true
      · obtain ⟨h', hf, fr⟩ := free_spec h.mem hd.addr hfin
        simp only [hf, Option.bind_eq_bind, Option.bind_some, Option.pure_def, Option.some.injEq, hfin, if_true] at he
        subst he
        refine ⟨by simp only [fr.counters.1]; exact Nat.le_refl _, ?_⟩
        intro a ha gh hg
        simp only [upd] at hg
        split at hg
        · cases hg
        · rw [ha] at hg; cases hg
      · have hf' : (s.heap.traces hd.addr).finished = false := by simpa using hfin
        simp [Heap.free, hf'] at he
        subst he
        exact keep rfl rfl
  | call b env c ch =>
    by_cases hb : b < s.heap.nextT
    · obtain ⟨s₁, p, h1, _, _, h5, h6, _, h7⟩ := inv_call h b env c ch hb
      rw [h1] at he
      obtain rfl := Option.some.inj he
      refine ⟨by rw [h5, h6.counters.1]; exact Nat.le_refl _, ?_⟩
      intro a ha gh hg
      rw [h7] at hg
      simp only [upd] at hg
      split at hg
      · rename_i hab; rw [← hab, ha] at hg; cases hg
      · rw [ha] at hg; cases hg
    · simp only [St.step, if_neg hb, Option.some.injEq] at he
      subst he
      exact keep rfl rfl
  | gcTrace i => simp [St.step] at he; subst he; exact keep rfl rfl
  | gcEvent i => simp [St.step] at he; subst he; exact keep rfl rfl
  | gcStr i => simp [St.step] at he; subst he; exact keep rfl rfl

/-- Once the object has been freed, the trace never comes back. -/
theorem gone_run {s s' : St W A} {f : List (Ring.Spec.Family Handle)} (h : Inv s f) (acts : List (Act W A))
    (he : s.run acts = some s') {a c : Nat} (hc : c < s.heap.n.traceNew)
    (hg : ∀ gh, s.ghost a = some gh → gh.cid ≠ c) : ∀ gh, s'.ghost a = some gh → gh.cid ≠ c := by
  induction acts generalizing s f with
  | nil => simp [St.run] at he; subst he; exact hg
  | cons act acts ih =>
    obtain ⟨s₁, f₁, h1, h2⟩ := inv_step h act
    simp only [St.run, h1, Option.bind_eq_bind, Option.bind_some] at he
    obtain ⟨d1, d2⟩ := step_dead h h1
    refine ih h2 he (Nat.lt_of_lt_of_le hc d1) ?_
    intro gh hgh
    cases hs : s.ghost a with
    | none => have := d2 a hs gh hgh; omega
    | some gh₀ =>
      rcases step_live h h1 hs with ⟨gh', e1, e2, _⟩ | ⟨e1, _⟩
      · rw [e1] at hgh
        obtain rfl := Option.some.inj hgh
        rw [e2]; exact hg gh₀ hs
      · rw [e1] at hgh; cases hgh

/-- A trace that is still in its object got exactly the calls made on that object. -/
theorem live_run {s s' : St W A} {f : List (Ring.Spec.Family Handle)} (h : Inv s f) (acts : List (Act W A))
    (he : s.run acts = some s') {a : Nat} {gh gh' : Ghost W A} (hg : s.ghost a = some gh)
    (hg' : s'.ghost a = some gh') (hc : gh'.cid = gh.cid) :
    gh'.fresh = gh.fresh ∧ gh'.hist = gh.hist ++ callsAt a acts := by
  induction acts generalizing s f gh with
  | nil =>
    simp [St.run] at he; subst he
    rw [hg] at hg'
    obtain rfl := Option.some.inj hg'
    exact ⟨rfl, by simp [callsAt]⟩
  | cons act acts ih =>
    obtain ⟨s₁, f₁, h1, h2⟩ := inv_step h act
    simp only [St.run, h1, Option.bind_eq_bind, Option.bind_some] at he
    rcases step_live h h1 hg with ⟨gh₁, e1, e2, e3, e4⟩ | ⟨e1, _⟩
    · obtain ⟨i1, i2⟩ := ih h2 he e1 (by rw [e2]; exact hc)
      refine ⟨i1.trans e3, ?_⟩
      rw [i2, e4, List.append_assoc]
      rw [← callsAt_append]
      rfl
    · exfalso
      refine gone_run h2 acts he (c := gh.cid) ?_ ?_ gh' hg' hc
      · exact Nat.lt_of_lt_of_le (h.cidLt a gh hg) (step_dead h h1).1
      · intro x hx; rw [e1] at hx; cases hx

/-- The value of an unfinished history is unfinished. -/
theorem run_unfinished (g : Globals) (now : Time) (id source category : String) (hist : Hist W A) {tr : CoreTrace A}
    (hr : private_ g now id source category hist = some tr) :
    tr.finished = (finishedAt hist).isSome ∧ tr.id = id ∧ tr.source = source ∧ tr.category = category ∧ tr.start = now := by
  unfold private_ at hr
  rw [new_conc (W := W), run_conc] at hr
  obtain rfl := Option.some.inj hr
  have := run_finishedAt (a := (Abs.new g.traceMaxEvents : Abs W A)) rfl hist
  refine ⟨?_, rfl, rfl, rfl, rfl⟩
  show ((Abs.new g.traceMaxEvents : Abs W A).run hist).fin.isSome = _
  rw [this]

theorem run_append' (s : St W A) (x y : List (Act W A)) : s.run (x ++ y) = (s.run x).bind fun t => t.run y := by
  induction x generalizing s with
  | nil => rfl
  | cons act x ih =>
    simp only [List.cons_append, St.run]
    cases s.step act with
    | none => rfl
    | some t => simp [ih]

/-- An unfinished trace stays in its object. -/
theorem unfinished_run {s s' : St W A} {f : List (Ring.Spec.Family Handle)} (h : Inv s f) (acts : List (Act W A))
    (he : s.run acts = some s') {a : Nat} {gh : Ghost W A} (hg : s.ghost a = some gh)
    (hf : finishedAt (gh.hist ++ callsAt a acts) = none) :
    ∃ gh', s'.ghost a = some gh' ∧ gh'.cid = gh.cid := by
  induction acts generalizing s f gh with
  | nil => simp [St.run] at he; subst he; exact ⟨gh, hg, rfl⟩
  | cons act acts ih =>
    obtain ⟨s₁, f₁, h1, h2⟩ := inv_step h act
    simp only [St.run, h1, Option.bind_eq_bind, Option.bind_some] at he
    have happ : callsAt a (act :: acts) = callsAt a [act] ++ callsAt a acts := callsAt_append a [act] acts
    rcases step_live h h1 hg with ⟨gh₁, e1, e2, e3, e4⟩ | ⟨_, e2, _⟩
    · obtain ⟨gh', i1, i2⟩ := ih h2 he e1 (by rw [e4, List.append_assoc, ← happ]; exact hf)
      exact ⟨gh', i1, i2.trans e2⟩
    · exfalso
      have hl := h.live a gh hg
      have := (run_unfinished gh.g gh.start gh.id gh.source gh.category gh.hist hl).1
      have e2' : (absTrace s.heap a).finished = true := e2
      rw [e2'] at this
      have hpre : ∀ x y : Hist W A, finishedAt (x ++ y) = none → finishedAt x = none := by
        intro x y
        induction x with
        | nil => intro _; rfl
        | cons p x ih =>
          obtain ⟨env, c⟩ := p
          cases c <;> simp [finishedAt] <;> exact ih
      rw [hpre _ _ hf] at this
      cases this

/-- A live trace the collector does not hold any more stays in its object. -/
theorem lost_run {s s' : St W A} {f : List (Ring.Spec.Family Handle)} (h : Inv s f) (acts : List (Act W A))
    (he : s.run acts = some s') {a : Nat} {gh : Ghost W A} (hg : s.ghost a = some gh)
    (hn : (⟨a, gh.cid⟩ : Handle) ∉ places s f) :
    ∃ gh', s'.ghost a = some gh' ∧ gh'.cid = gh.cid := by
  induction acts generalizing s f gh with
  | nil => simp [St.run] at he; subst he; exact ⟨gh, hg, rfl⟩
  | cons act acts ih =>
    obtain ⟨s₁, f₁, h1, h2⟩ := inv_step h act
    simp only [St.run, h1, Option.bind_eq_bind, Option.bind_some] at he
    have hnot : ∀ gh₁, s₁.ghost a = some gh₁ → gh₁.cid = gh.cid → (⟨a, gh.cid⟩ : Handle) ∉ places s₁ f₁ := by
      intro gh₁ hg₁ hc₁ hm
      -- the held traces of `s₁` are held by `s` or new
      have hsub : ∀ hd ∈ held s₁, hd ∈ held s ∨ hd.cid = s.heap.n.traceNew := by
        have hring : ∀ (s₀ : St W A) (k : Nat) (g : Ring.Spec.Family Handle) (op : MOp Handle), f[k]? = some g →
            s₀ = { s with inflight := s₀.inflight } →
            (s₀.inflight.map Prod.fst ++ Ring.putIn g op).Perm (s.inflight.map Prod.fst) →
            s₀.ring k op = some s₁ → ∀ hd ∈ held s₁, hd ∈ held s ∨ hd.cid = s.heap.n.traceNew := by
          intro s₀ k g op hk e0 e1 e2 hd hh
          obtain ⟨r, hr, hfr, hfo⟩ := h.rep' hk
          obtain ⟨s₂, j1, j2, -, -, -, -, j3, j4⟩ := inv_ring h s₀ hk op e0 e1
          rw [e2] at j1
          obtain rfl := Option.some.inj j1
          rw [held_eq j2] at hh
          rw [held_eq h]
          left
          have h1 := perm_set hk (Ring.retained_step hfo op)
          unfold places at hh ⊢
          rw [j3, j4] at hh
          simp only [List.mem_append] at hh ⊢
          have hr1 := fun x => (h1.mem_iff (a := x))
          have hi1 := fun x => (e1.mem_iff (a := x))
          simp only [List.mem_append] at hr1 hi1
          rcases hh with (hh | hh) | (hh | hh)
          · exact .inl (.inl ((hi1 hd).mp (.inl hh)))
          · rcases (hr1 hd).mp (.inl hh) with q | q
            · exact .inl (.inl ((hi1 hd).mp (.inr q)))
            · exact .inl (.inr q)
          · exact .inr hh
          · rcases (hr1 hd).mp (.inr hh) with q | q
            · exact .inl (.inl ((hi1 hd).mp (.inr q)))
            · exact .inl (.inr q)
        have hring' : ∀ (k : Nat) (op : MOp Handle), (∀ g, Ring.putIn g op = ([] : List Handle)) → s.ring k op = some s₁ →
            ∀ hd ∈ held s₁, hd ∈ held s ∨ hd.cid = s.heap.n.traceNew := by
          intro k op hop e
          cases hk : s.rings[k]? with
          | none =>
            rw [ring_none hk] at e
            obtain rfl := Option.some.inj e
            intro hd hh; exact .inl hh
          | some r =>
            obtain ⟨g, hg', _, _⟩ := h.rep hk
            exact hring s k g op hg' rfl (by simp [hop]) e
        cases act with
        | set x => simp [St.step] at h1; subst h1; intro hd hh; exact .inl hh
        | newCollector size =>
          obtain ⟨n, hn', hs'⟩ := newRBs_size size
          have hi := inv_newCollector h hn' hs'
          simp only [St.step, Option.some.injEq] at h1
          subst h1
          intro hd hh
          rw [held_eq hi] at hh
          rw [held_eq h]
          left
          simpa [places, Ring.Spec.Family.retained, Ring.Spec.Family.new] using hh
        | new k now id source category ch =>
          simp only [St.step, Option.some.injEq] at h1
          subst h1
          intro hd hh
          simp only [held, allRetained_eq, List.map_append, List.map_cons, List.map_nil, List.mem_append,
            List.mem_singleton] at hh ⊢
          rcases hh with ((hh | hh) | hh) | hh
          · exact .inl (.inl (.inl hh))
          · right; rw [hh]
          · exact .inl (.inl (.inr hh))
          · exact .inl (.inr hh)
        | getOrCreate k category => exact hring' k _ (fun _ => rfl) h1
        | add i =>
          simp only [St.step] at h1
          cases hi : s.inflight[i]? with
          | none => rw [hi] at h1; simp only [Option.some.injEq] at h1; subst h1; intro hd hh; exact .inl hh
          | some x =>
            obtain ⟨hd, k, category⟩ := x
            rw [hi] at h1
            simp only at h1
            cases hk : s.rings[k]? with
            | none => rw [hk] at h1; simp at h1; subst h1; intro hd hh; exact .inl hh
            | some rbs =>
              rw [hk] at h1
              simp only at h1
              obtain ⟨g, hg', hfr, _⟩ := h.rep hk
              cases hb : rbs.bufs.find category with
              | none => rw [hb] at h1; simp at h1; subst h1; intro hd hh; exact .inl hh
              | some rb =>
                rw [hb] at h1
                simp only [Option.isSome_some, if_true] at h1
                obtain ⟨r, hr, _⟩ := hfr.isSome hb
                refine hring { s with inflight := s.inflight.eraseIdx i } k g _ hg' rfl ?_ h1
                simp only [Ring.putIn, hr, Option.isSome_some, if_true]
                refine List.perm_append_comm.trans ?_
                exact (perm_eraseIdx hi).map Prod.fst
        | beginResize k cap order => exact hring' k _ (fun _ => rfl) h1
        | resizeNext k => exact hring' k _ (fun _ => rfl) h1
        | free i =>
          simp only [St.step] at h1
          cases hi : s.pending[i]? with
          | none => rw [hi] at h1; simp only [Option.some.injEq] at h1; subst h1; intro hd hh; exact .inl hh
          | some hd =>
            rw [hi] at h1
            simp only at h1
            cases hf : s.heap.free hd.addr with
            | none => simp [hf] at h1
            | some h' =>
              simp only [hf, Option.bind_eq_bind, Option.bind_some, Option.pure_def, Option.some.injEq] at h1
              subst h1
              intro x hh
              simp only [held, allRetained_eq, List.mem_append] at hh ⊢
              rcases hh with hh | hh
              · exact .inl (.inl hh)
              · exact .inl (.inr (List.mem_of_mem_eraseIdx hh))
        | call b env c ch =>
          simp only [St.step] at h1
          split at h1
          · cases hcl : s.heap.call b ch env c with
            | none => simp [hcl] at h1
            | some p =>
              simp only [hcl, Option.bind_eq_bind, Option.bind_some, Option.pure_def, Option.some.injEq] at h1
              subst h1; intro hd hh; exact .inl hh
          · simp only [Option.some.injEq] at h1; subst h1; intro hd hh; exact .inl hh
        | gcTrace i => simp [St.step] at h1; subst h1; intro hd hh; exact .inl hh
        | gcEvent i => simp [St.step] at h1; subst h1; intro hd hh; exact .inl hh
        | gcStr i => simp [St.step] at h1; subst h1; intro hd hh; exact .inl hh
      rw [← held_eq h2] at hm
      rcases hsub _ hm with hh | hh
      · rw [held_eq h] at hh; exact hn hh
      · have := h.cidLt a gh hg
        simp only at hh; omega
    rcases step_live h h1 hg with ⟨gh₁, e1, e2, e3, e4⟩ | ⟨_, _, i, hd, _, e4, e5⟩
    · obtain ⟨gh', i1, i2⟩ := ih h2 he e1 (by rw [e2]; exact hnot gh₁ e1 e2)
      exact ⟨gh', i1, i2.trans e2⟩
    · exfalso
      have hmem : hd ∈ places s f := by
        unfold places
        exact List.mem_append_right _ (List.mem_of_getElem? e4)
      obtain ⟨g, g1, g2⟩ := h.plive hd hmem
      rw [e5, hg] at g1
      obtain rfl := Option.some.inj g1
      apply hn
      obtain ⟨ha, hc⟩ := hd
      simp only at e5 g2
      rw [g2, ← e5]; exact hmem

/-- The situation right after a creation. -/
theorem created (before : List (Act W A)) (k : Nat) (now : Time) (id source category : String)
    (ch : Choice) :
    ∃ s₀ s₁ f₁ a, St.init.run before = some s₀ ∧ s₀.step (.new k now id source category ch) = some s₁ ∧
      Inv s₁ f₁ ∧ s₁.inflight = s₀.inflight ++ [(⟨a, s₀.heap.n.traceNew⟩, k, category)] ∧
      ∃ gh, s₁.ghost a = some gh ∧ gh.cid = s₀.heap.n.traceNew ∧ gh.hist = [] ∧
        gh.fresh = Core.newCoreTrace s₀.globals now id source category zeroTrace := by
  obtain ⟨s₀, f₀, h1, h2⟩ := inv_run (inv_init (W := W) (A := A)) before
  obtain ⟨s₁, h3, h4⟩ := inv_new h2 k now id source category ch
  refine ⟨s₀, s₁, f₀, (s₀.heap.newCoreTrace s₀.globals ch.trace now id source category).2, h1, h3, h4, ?_⟩
  simp only [St.step, Option.some.injEq] at h3
  subst h3
  exact ⟨rfl, _, upd_same _ _ _, rfl, rfl, rfl⟩


theorem init_inv_run {acts : List (Act W A)} {s : St W A}
    (hr : St.init.run acts = some s) : ∃ f, Inv s f := by
  obtain ⟨s', f, h1, h2⟩ := inv_run (inv_init (W := W) (A := A)) acts
  rw [hr] at h1
  obtain rfl := Option.some.inj h1
  exact ⟨f, h2⟩

/-- No step panics. -/
theorem C20_never_panics (acts : List (Act W A)) :
    ∃ s, St.init.run acts = some s := by
  obtain ⟨s, _, h, _⟩ := inv_run (inv_init (W := W) (A := A)) acts
  exact ⟨s, h⟩

/-- **C19**. Create a trace at any point of any program run, at address `a`. Whatever happens
afterwards, as long as `Finish` is not called on it, the object at `a` is exactly what a private
trace would be after the calls made on it: same identity, those events and no others. -/
theorem C19_unfinished_never_recycled (before after : List (Act W A)) (k : Nat) (now : Time)
    (id source category : String) (ch : Choice) :
    ∃ s₀ s₁ s₂ a, St.init.run before = some s₀ ∧
      s₀.step (.new k now id source category ch) = some s₁ ∧
      s₁.inflight = s₀.inflight ++ [(⟨a, s₀.heap.n.traceNew⟩, k, category)] ∧
      s₁.run after = some s₂ ∧
      (finishedAt (callsAt a after) = none →
        ∃ tr, absTrace s₂.heap a = tr ∧ private_ s₀.globals now id source category (callsAt a after) = some tr ∧
          tr.id = id ∧ tr.source = source ∧ tr.category = category ∧ tr.start = now ∧ tr.finished = false) := by
  obtain ⟨s₀, s₁, f₁, a, h1, h2, hinv, h3, gh, g1, g2, g3, g4⟩ := created before k now id source category ch
  obtain ⟨s₂, f₂, h4, hinv₂⟩ := inv_run hinv after
  refine ⟨s₀, s₁, s₂, a, h1, h2, h3, h4, ?_⟩
  intro hf
  obtain ⟨gh', e1, e2⟩ := unfinished_run hinv after h4 g1 (by rw [g3]; exact hf)
  obtain ⟨e3, e4⟩ := live_run hinv after h4 g1 e1 e2
  have hl := hinv₂.live a gh' e1
  rw [e3, e4, g3, g4, List.nil_append] at hl
  obtain ⟨u1, u2, u3, u4, u5⟩ := run_unfinished _ _ _ _ _ _ (show private_ s₀.globals now id source category _ = _ from hl)
  exact ⟨_, rfl, hl, u2, u3, u4, u5, by rw [u1, hf]; rfl⟩

/-- **C19**, a trace dropped while active: if the collector dropped the trace and tried to free
it before it was finished, it is not recycled even after it is finished later. -/
theorem C19_dropped_while_active (before after₁ after₂ : List (Act W A)) (k : Nat) (now : Time)
    (id source category : String) (ch : Choice) (i : Nat) :
    ∃ s₀ s₁ s₂ s₃ s₄ a, St.init.run before = some s₀ ∧
      s₀.step (.new k now id source category ch) = some s₁ ∧
      s₁.inflight = s₀.inflight ++ [(⟨a, s₀.heap.n.traceNew⟩, k, category)] ∧
      s₁.run after₁ = some s₂ ∧ s₂.step (.free i) = some s₃ ∧ s₃.run after₂ = some s₄ ∧
      (s₂.pending[i]? = some ⟨a, s₀.heap.n.traceNew⟩ → finishedAt (callsAt a after₁) = none →
        private_ s₀.globals now id source category (callsAt a after₁ ++ callsAt a after₂) = some (absTrace s₄.heap a)) := by
  obtain ⟨s₀, s₁, f₁, a, h1, h2, hinv, h3, gh, g1, g2, g3, g4⟩ := created before k now id source category ch
  obtain ⟨s₂, f₂, h4, hinv₂⟩ := inv_run hinv after₁
  obtain ⟨s₃, f₃, h5, hinv₃⟩ := inv_step hinv₂ (.free i)
  obtain ⟨s₄, f₄, h6, hinv₄⟩ := inv_run hinv₃ after₂
  refine ⟨s₀, s₁, s₂, s₃, s₄, a, h1, h2, h3, h4, h5, h6, ?_⟩
  intro hi hf
  obtain ⟨gh', e1, e2⟩ := unfinished_run hinv after₁ h4 g1 (by rw [g3]; exact hf)
  obtain ⟨e3, e4⟩ := live_run hinv after₁ h4 g1 e1 e2
  have hl := hinv₂.live a gh' e1
  rw [e3, e4, g3, g4, List.nil_append] at hl
  have hnf : (s₂.heap.traces a).finished = false := by
    have := (run_unfinished _ _ _ _ _ _ (show private_ s₀.globals now id source category _ = _ from hl)).1
    rw [hf] at this; exact this
  have hs₃ : s₃ = { s₂ with
      heap := { s₂.heap with n := { s₂.heap.n with traceLost := s₂.heap.n.traceLost + 1 } }
      pending := s₂.pending.eraseIdx i } := by
    have : s₂.step (.free i) = some { s₂ with
      heap := { s₂.heap with n := { s₂.heap.n with traceLost := s₂.heap.n.traceLost + 1 } }
      pending := s₂.pending.eraseIdx i } := by
      simp [St.step, hi, Heap.free, hnf]
    rw [h5] at this
    exact Option.some.inj this
  have e1' : s₃.ghost a = some gh' := by rw [hs₃]; exact e1
  have hcid : gh'.cid = s₀.heap.n.traceNew := e2.trans g2
  have hnot : (⟨a, gh'.cid⟩ : Handle) ∉ places s₃ f₃ := by
    rw [← held_eq hinv₃]
    have hperm : ((⟨a, gh'.cid⟩ : Handle) :: held s₃).Perm (held s₂) := by
      rw [hs₃, hcid]
      simp only [held, allRetained_eq]
      refine (List.perm_middle.symm).trans ?_
      exact List.Perm.append_left _ (perm_eraseIdx hi)
    have hnd : (held s₂).Nodup := by rw [held_eq hinv₂]; exact hinv₂.nodup
    have := hperm.nodup_iff.mpr hnd
    rw [List.nodup_cons] at this
    exact this.1
  obtain ⟨gh₄, k1, k2⟩ := lost_run hinv₃ after₂ h6 e1' hnot
  obtain ⟨k3, k4⟩ := live_run hinv₃ after₂ h6 e1' k1 k2
  have hl₄ := hinv₄.live a gh₄ k1
  rw [k3, e3, g4, k4, e4, g3, List.nil_append] at hl₄
  exact hl₄

/-- **C19**, locality: in every reachable state, a call through a pointer never panics, returns
what the call on the trace's value returns, and changes no other trace. -/
theorem C19_calls_stay_in_their_trace (acts : List (Act W A)) (s : St W A)
    (hr : St.init.run acts = some s) (a : Nat) (ha : a < s.heap.nextT) (env : Env W) (c : Call A) (ch : Choice) :
    ∃ snaps h', s.heap.call a ch env c = some (snaps, h') ∧
      (absTrace s.heap a).step env c = some (absTrace h' a, snaps.map h'.view) ∧
      ∀ b, b ≠ a → absTrace h' b = absTrace s.heap b := by
  obtain ⟨f, hinv⟩ := init_inv_run hr
  obtain ⟨s', p, _, _, h3, _, h5, h6, _⟩ := inv_call hinv a env c ch ha
  exact ⟨p.1, p.2, h3, h6, fun b hb => (h5.other b hb).2⟩

/-- **C20**: no two traces the collector holds share an object, none is in the pool, and no
object is in the pool twice. -/
theorem C20_held_distinct (acts : List (Act W A)) (s : St W A)
    (hr : St.init.run acts = some s) :
    ((held s).map Handle.addr).Nodup ∧ (∀ a ∈ s.heap.tracePool, a ∉ (held s).map Handle.addr) ∧
    s.heap.tracePool.Nodup ∧ s.heap.eventPool.Nodup ∧ s.heap.strPool.Nodup := by
  obtain ⟨f, hinv⟩ := init_inv_run hr
  rw [held_eq hinv]
  refine ⟨?_, ?_, hinv.tpNodup, hinv.mem.epNodup, hinv.mem.spNodup⟩
  · have hnd := hinv.nodup
    have hpl := hinv.plive
    generalize places s f = l at hnd hpl
    induction l with
    | nil => simp
    | cons x l ih =>
      rw [List.nodup_cons] at hnd
      simp only [List.map_cons, List.nodup_cons]
      refine ⟨?_, ih hnd.2 (fun y hy => hpl y (by simp [hy]))⟩
      intro hm
      obtain ⟨y, hy, hya⟩ := List.mem_map.mp hm
      obtain ⟨g1, a1, a2⟩ := hpl x (by simp)
      obtain ⟨g2, b1, b2⟩ := hpl y (by simp [hy])
      rw [hya, a1] at b1
      obtain rfl := Option.some.inj b1
      have : y = x := by
        cases x; cases y; simp only at *; subst hya; rw [← a2, ← b2]
      exact hnd.1 (this ▸ hy)
  · intro a ha hm
    obtain ⟨hd, hh, rfl⟩ := List.mem_map.mp hm
    obtain ⟨g, g1, _⟩ := hinv.plive hd hh
    rw [(hinv.tpDead _ ha).2] at g1; cases g1

/-- **C20**: events and stringers of different traces are different objects, and none of them is
in a pool. -/
theorem C20_events_distinct (acts : List (Act W A)) (s : St W A)
    (hr : St.init.run acts = some s) (a b : Nat) (hab : a ≠ b) :
    (∀ e ∈ (s.heap.traces a).events, e ∉ (s.heap.traces b).events ∧ e ∉ s.heap.eventPool) ∧
    (∀ e ∈ (s.heap.traces a).events, ∀ e' ∈ (s.heap.traces b).events,
      (s.heap.events e).what ≠ (s.heap.events e').what) ∧
    (∀ e ∈ (s.heap.traces a).events, ∃ z, (s.heap.events e).what = some z ∧ z ∉ s.heap.strPool) := by
  obtain ⟨f, hinv⟩ := init_inv_run hr
  refine ⟨?_, ?_, ?_⟩
  · intro e he
    exact ⟨fun hb => hab (hinv.mem.evOwn a b e he hb), hinv.mem.evPool e ⟨a, he⟩⟩
  · intro e he e' he' hw
    obtain ⟨z, hz, _⟩ := hinv.mem.str e ⟨a, he⟩
    have := hinv.mem.strInj e e' z ⟨a, he⟩ ⟨b, he'⟩ hz (by rw [← hw]; exact hz)
    subst this
    exact hab (hinv.mem.evOwn a b e he he')
  · intro e he
    obtain ⟨z, hz, _, hp⟩ := hinv.mem.str e ⟨a, he⟩
    exact ⟨z, hz, hp⟩

/-- **C20**: as long as the collector holds a trace its object is not reused: it is what a
private trace would be after the calls made on it. -/
theorem C20_held_not_reused (before after : List (Act W A)) (k : Nat) (now : Time)
    (id source category : String) (ch : Choice) :
    ∃ s₀ s₁ s₂ a, St.init.run before = some s₀ ∧
      s₀.step (.new k now id source category ch) = some s₁ ∧
      s₁.inflight = s₀.inflight ++ [(⟨a, s₀.heap.n.traceNew⟩, k, category)] ∧
      s₁.run after = some s₂ ∧
      (⟨a, s₀.heap.n.traceNew⟩ ∈ held s₂ →
        private_ s₀.globals now id source category (callsAt a after) = some (absTrace s₂.heap a)) := by
  obtain ⟨s₀, s₁, f₁, a, h1, h2, hinv, h3, gh, g1, g2, g3, g4⟩ := created before k now id source category ch
  obtain ⟨s₂, f₂, h4, hinv₂⟩ := inv_run hinv after
  refine ⟨s₀, s₁, s₂, a, h1, h2, h3, h4, ?_⟩
  intro hm
  rw [held_eq hinv₂] at hm
  obtain ⟨gh', e1, e2⟩ := hinv₂.plive _ hm
  obtain ⟨e3, e4⟩ := live_run hinv after h4 g1 e1 (e2.trans g2.symm)
  have hl := hinv₂.live a gh' e1
  rw [e3, e4, g3, g4, List.nil_append] at hl
  exact hl

/-- **C17** on memory: whatever the object was used for before, right after creation it is what
a trace in a fresh object would be. -/
theorem C17_recycled_object_starts_clean (before : List (Act W A)) (k : Nat) (now : Time)
    (id source category : String) (ch : Choice) :
    ∃ s₀ s₁ a, St.init.run before = some s₀ ∧
      s₀.step (.new k now id source category ch) = some s₁ ∧
      s₁.inflight = s₀.inflight ++ [(⟨a, s₀.heap.n.traceNew⟩, k, category)] ∧
      absTrace s₁.heap a =
        { source, id, category, start := now, errored := false, finished := false, duration := 0
          nostackflag := if s₀.globals.traceNoStacks then flagNoStack else 0, events := []
          eventsmax := s₀.globals.traceMaxEvents, truncated := 0 } := by
  obtain ⟨s₀, s₁, f₁, a, h1, h2, hinv, h3, gh, g1, g2, g3, g4⟩ := created before k now id source category ch
  refine ⟨s₀, s₁, a, h1, h2, h3, ?_⟩
  have hl := hinv.live a gh g1
  rw [g3, g4] at hl
  exact (Option.some.inj hl).symm

/-- **C21**, the part that holds: until the collector has dropped *and freed* it, a finished
trace is frozen: later calls through its handle change nothing it reports, and the object still
holds this trace. (Events are compared as reads return them.) -/
theorem C21_frozen_while_held_partial (before after₁ after₂ : List (Act W A))
    (k : Nat) (now : Time) (id source category : String) (ch : Choice) :
    ∃ s₀ s₁ s₂ s₃ a, St.init.run before = some s₀ ∧
      s₀.step (.new k now id source category ch) = some s₁ ∧
      s₁.inflight = s₀.inflight ++ [(⟨a, s₀.heap.n.traceNew⟩, k, category)] ∧
      s₁.run after₁ = some s₂ ∧ s₂.run after₂ = some s₃ ∧
      (finishedAt (callsAt a after₁) ≠ none → ⟨a, s₀.heap.n.traceNew⟩ ∈ held s₃ →
        (absTrace s₂.heap a).run (callsAt a after₂) = some (absTrace s₃.heap a) ∧
        (s₃.heap.traces a).id = id ∧ (s₃.heap.traces a).source = source ∧ (s₃.heap.traces a).category = category ∧
        (s₃.heap.traces a).start = now ∧ (s₃.heap.traces a).finished = true ∧
        (s₃.heap.traces a).duration = (s₂.heap.traces a).duration ∧
        (s₃.heap.traces a).errored = (s₂.heap.traces a).errored ∧
        (s₃.heap.traces a).events = (s₂.heap.traces a).events ∧
        (s₃.heap.traces a).truncated = (s₂.heap.traces a).truncated) := by
  obtain ⟨s₀, s₁, f₁, a, h1, h2, hinv, h3, gh, g1, g2, g3, g4⟩ := created before k now id source category ch
  obtain ⟨s₂, f₂, h4, hinv₂⟩ := inv_run hinv after₁
  obtain ⟨s₃, f₃, h5, hinv₃⟩ := inv_run hinv₂ after₂
  refine ⟨s₀, s₁, s₂, s₃, a, h1, h2, h3, h4, h5, ?_⟩
  intro hf hm
  rw [held_eq hinv₃] at hm
  obtain ⟨gh₃, e1, e2⟩ := hinv₃.plive _ hm
  -- live in between as well
  have hmid : ∃ gh₂, s₂.ghost a = some gh₂ ∧ gh₂.cid = gh.cid := by
    cases hg : s₂.ghost a with
    | none =>
      exfalso
      have hlt : gh.cid < s₂.heap.n.traceNew := by
        have hmono : ∀ (acts : List (Act W A)) (s s' : St W A) (f : _), Inv s f → s.run acts = some s' →
            s.heap.n.traceNew ≤ s'.heap.n.traceNew := by
          intro acts
          induction acts with
          | nil => intro s s' f _ hr; simp [St.run] at hr; subst hr; exact Nat.le_refl _
          | cons act acts ih =>
            intro s s' f hi hr
            obtain ⟨t, ft, t1, t2⟩ := inv_step hi act
            simp only [St.run, t1, Option.bind_eq_bind, Option.bind_some] at hr
            exact Nat.le_trans (step_dead hi t1).1 (ih t s' ft t2 hr)
        exact Nat.lt_of_lt_of_le (hinv.cidLt a gh g1) (hmono after₁ s₁ s₂ f₁ hinv h4)
      exact gone_run hinv₂ after₂ h5 hlt (by intro x hx; rw [hg] at hx; cases hx) gh₃ e1 (e2.trans g2.symm)
    | some gh₂ =>
      refine ⟨gh₂, rfl, ?_⟩
      by_cases hc : gh₂.cid = gh.cid
      · exact hc
      · exfalso
        have hlt : gh.cid < s₂.heap.n.traceNew := by
          have hmono : ∀ (acts : List (Act W A)) (s s' : St W A) (f : _), Inv s f → s.run acts = some s' →
              s.heap.n.traceNew ≤ s'.heap.n.traceNew := by
            intro acts
            induction acts with
            | nil => intro s s' f _ hr; simp [St.run] at hr; subst hr; exact Nat.le_refl _
            | cons act acts ih =>
              intro s s' f hi hr
              obtain ⟨t, ft, t1, t2⟩ := inv_step hi act
              simp only [St.run, t1, Option.bind_eq_bind, Option.bind_some] at hr
              exact Nat.le_trans (step_dead hi t1).1 (ih t s' ft t2 hr)
          exact Nat.lt_of_lt_of_le (hinv.cidLt a gh g1) (hmono after₁ s₁ s₂ f₁ hinv h4)
        exact gone_run hinv₂ after₂ h5 hlt (by intro x hx; rw [hg] at hx; obtain rfl := Option.some.inj hx; exact hc)
          gh₃ e1 (e2.trans g2.symm)
  obtain ⟨gh₂, m1, m2⟩ := hmid
  obtain ⟨l1, l2⟩ := live_run hinv after₁ h4 g1 m1 m2
  have hl₂ := hinv₂.live a gh₂ m1
  rw [l1, l2, g3, g4, List.nil_append] at hl₂
  obtain ⟨l3, l4⟩ := live_run hinv₂ after₂ h5 m1 e1 (e2.trans (g2.symm.trans m2.symm))
  have hl₃ := hinv₃.live a gh₃ e1
  rw [l3, l4, l1, l2, g3, g4, List.nil_append, core_run_append, hl₂, Option.bind_some] at hl₃
  refine ⟨hl₃, ?_⟩
  obtain ⟨u1, u2, u3, u4, u5⟩ := run_unfinished _ _ _ _ _ _ (show private_ s₀.globals now id source category _ = _ from hl₂)
  have hfin₂ : (s₂.heap.traces a).finished = true := by
    show (absTrace s₂.heap a).finished = true
    rw [u1]; exact Option.isSome_iff_ne_none.mpr hf
  -- the object is only touched by no-ops
  have key : ∀ (acts : List (Act W A)) (s s' : St W A) (f : _), Inv s f → s.run acts = some s' →
      ∀ gh gh', s.ghost a = some gh → s'.ghost a = some gh' → gh'.cid = gh.cid →
      (s.heap.traces a).finished = true →
      (s'.heap.traces a).finished = true ∧ (s'.heap.traces a).events = (s.heap.traces a).events := by
    intro acts
    induction acts with
    | nil => intro s s' f _ hr gh gh' _ _ _ hfin; simp [St.run] at hr; subst hr; exact ⟨hfin, rfl⟩
    | cons act acts ih =>
      intro s s' f hi hr gh gh' hg hg' hc hfin
      obtain ⟨t, ft, t1, t2⟩ := inv_step hi act
      simp only [St.run, t1, Option.bind_eq_bind, Option.bind_some] at hr
      rcases step_live hi t1 hg with ⟨gh₁, e1, e2, e3, e4⟩ | ⟨e1, _⟩
      · have hstep : (t.heap.traces a).finished = true ∧ (t.heap.traces a).events = (s.heap.traces a).events := by
          cases act with
          | set x => simp [St.step] at t1; subst t1; exact ⟨hfin, rfl⟩
          | newCollector size => simp [St.step] at t1; subst t1; exact ⟨hfin, rfl⟩
          | new k now id source category ch =>
            have n := newCoreTrace_spec hi.mem (fun a ha => hi.dead a (hi.tpDead a ha).2)
              (fun a ha => hi.dead a (by
                cases hg : s.ghost a with
                | none => rfl
                | some gh => have := hi.lt a gh hg; omega)) s.globals ch.trace now id source category
            simp only [St.step, Option.some.injEq] at t1
            have hne : a ≠ (s.heap.newCoreTrace s.globals ch.trace now id source category).2 := by
              intro hh
              rcases n.taken with ⟨h1, _, _⟩ | ⟨h1, _, _⟩
              · rw [← hh] at h1
                have := (hi.tpDead a h1).2
                rw [hg] at this; cases this
              · rw [← hh] at h1
                have := hi.lt a gh hg
                omega
            subst t1
            simp only
            rw [(n.other a hne).1]
            exact ⟨hfin, rfl⟩
          | getOrCreate k category => rw [(ring_same t1).2.1]; exact ⟨hfin, rfl⟩
          | add i =>
            simp only [St.step] at t1
            split at t1
            · simp only [Option.some.injEq] at t1; subst t1; exact ⟨hfin, rfl⟩
            · split at t1
              · simp only [Option.some.injEq] at t1; subst t1; exact ⟨hfin, rfl⟩
              · split at t1
                · rw [(ring_same t1).2.1]; exact ⟨hfin, rfl⟩
                · simp only [Option.some.injEq] at t1; subst t1; exact ⟨hfin, rfl⟩
          | beginResize k cap order => rw [(ring_same t1).2.1]; exact ⟨hfin, rfl⟩
          | resizeNext k => rw [(ring_same t1).2.1]; exact ⟨hfin, rfl⟩
          | free i =>
            simp only [St.step] at t1
            cases hp : s.pending[i]? with
            | none => rw [hp] at t1; simp only [Option.some.injEq] at t1; subst t1; exact ⟨hfin, rfl⟩
            | some hd =>
              rw [hp] at t1
              simp only at t1
              by_cases hfd : (s.heap.traces hd.addr).finished = true
              · obtain ⟨h', hf', fr⟩ := free_spec hi.mem hd.addr hfd
                simp only [hf', Option.bind_eq_bind, Option.bind_some, Option.pure_def, Option.some.injEq, hfd, if_true] at t1
                have hne : a ≠ hd.addr := by
                  intro hh
                  subst t1
                  rw [hh] at e1
                  simp only [upd_same] at e1
                  cases e1
                subst t1
                simp only
                rw [(fr.other a hne).1]
                exact ⟨hfin, rfl⟩
              · have hf' : (s.heap.traces hd.addr).finished = false := by simpa using hfd
                simp [Heap.free, hf'] at t1
                subst t1
                exact ⟨hfin, rfl⟩
          | call b env c ch =>
            by_cases hb : b < s.heap.nextT
            · obtain ⟨s₁, p, k1, _, _, k5, k6, _, k7⟩ := inv_call hi b env c ch hb
              rw [k1] at t1
              obtain rfl := Option.some.inj t1
              rw [k5]
              by_cases hba : a = b
              · subst hba; exact k6.fin hfin
              · rw [(k6.other a hba).1]; exact ⟨hfin, rfl⟩
            · simp only [St.step, if_neg hb, Option.some.injEq] at t1
              subst t1; exact ⟨hfin, rfl⟩
          | gcTrace i => simp [St.step] at t1; subst t1; exact ⟨hfin, rfl⟩
          | gcEvent i => simp [St.step] at t1; subst t1; exact ⟨hfin, rfl⟩
          | gcStr i => simp [St.step] at t1; subst t1; exact ⟨hfin, rfl⟩
        obtain ⟨i1, i2⟩ := ih t s' ft t2 hr gh₁ gh' e1 hg' (hc.trans e2.symm) hstep.1
        exact ⟨i1, i2.trans hstep.2⟩
      · exfalso
        refine gone_run t2 acts hr (c := gh.cid) ?_ ?_ gh' hg' hc
        · exact Nat.lt_of_lt_of_le (hi.cidLt a gh hg) (step_dead hi t1).1
        · intro x hx; rw [e1] at hx; cases hx
  obtain ⟨k1, k2⟩ := key after₂ s₂ s₃ f₂ hinv₂ h5 gh₂ gh₃ m1 e1 (e2.trans (g2.symm.trans m2.symm)) hfin₂
  -- values: run on a finished value
  have hval : ∀ (h : Hist W A) (tr tr' : CoreTrace A), tr.finished = true → tr.run h = some tr' →
      tr'.id = tr.id ∧ tr'.source = tr.source ∧ tr'.category = tr.category ∧ tr'.start = tr.start ∧
      tr'.duration = tr.duration ∧ tr'.errored = tr.errored ∧ tr'.truncated = tr.truncated := by
    intro h
    induction h with
    | nil => intro tr tr' _ hr; simp [CoreTrace.run] at hr; subst hr; exact ⟨rfl, rfl, rfl, rfl, rfl, rfl, rfl⟩
    | cons x h ih =>
      intro tr tr' hfin hr
      obtain ⟨env, c⟩ := x
      simp only [CoreTrace.run] at hr
      cases hs : tr.step env c with
      | none => simp [hs] at hr
      | some p =>
        simp only [hs, Option.bind_eq_bind, Option.bind_some] at hr
        have hp : p.1.finished = true ∧ p.1.id = tr.id ∧ p.1.source = tr.source ∧ p.1.category = tr.category ∧
            p.1.start = tr.start ∧ p.1.duration = tr.duration ∧ p.1.errored = tr.errored ∧ p.1.truncated = tr.truncated := by
          cases c with
          | log kind f a c =>
            have : p = (tr, []) := by
              cases kind <;>
                simp [CoreTrace.step, CoreTrace.tracef, CoreTrace.lazyTracef, CoreTrace.errorf, CoreTrace.lazyErrorf, hfin] at hs <;>
                exact hs.symm
            rw [this]; exact ⟨hfin, rfl, rfl, rfl, rfl, rfl, rfl, rfl⟩
          | finish =>
            simp [CoreTrace.step, CoreTrace.finish, hfin] at hs
            rw [← hs]; exact ⟨hfin, rfl, rfl, rfl, rfl, rfl, rfl, rfl⟩
          | setMaxEvents m =>
            simp only [CoreTrace.step, CoreTrace.setMaxEvents, Option.some.injEq] at hs
            rw [← hs]
            split
            · exact ⟨hfin, rfl, rfl, rfl, rfl, rfl, rfl, rfl⟩
            · split <;> exact ⟨hfin, rfl, rfl, rfl, rfl, rfl, rfl, rfl⟩
          | read n st =>
            simp only [CoreTrace.step, Option.map_eq_some_iff] at hs
            obtain ⟨q, hq, rfl⟩ := hs
            unfold CoreTrace.eventsDetail at hq
            simp only [Option.bind_eq_bind, Option.bind_eq_some_iff] at hq
            obtain ⟨x1, _, x2, _, hq⟩ := hq
            split at hq
            · simp only [Option.bind_eq_some_iff] at hq
              obtain ⟨x3, _, hq⟩ := hq
              simp only [Option.pure_def, Option.some.injEq] at hq
              rw [← hq]; exact ⟨hfin, rfl, rfl, rfl, rfl, rfl, rfl, rfl⟩
            · simp only [Option.pure_def, Option.some.injEq] at hq
              rw [← hq]; exact ⟨hfin, rfl, rfl, rfl, rfl, rfl, rfl, rfl⟩
        obtain ⟨q0, q1, q2, q3, q4, q5, q6, q7⟩ := hp
        obtain ⟨i1, i2, i3, i4, i5, i6, i7⟩ := ih p.1 tr' q0 hr
        exact ⟨i1.trans q1, i2.trans q2, i3.trans q3, i4.trans q4, i5.trans q5, i6.trans q6, i7.trans q7⟩
  obtain ⟨v1, v2, v3, v4, v5, v6, v7⟩ := hval _ _ _ hfin₂ hl₃
  exact ⟨v1.trans u2, v2.trans u3, v3.trans u4, v4.trans u5, k1, v5, v6, k2, v7⟩

/-- **C22**, the part that holds: as long as the trace has not been freed, what an earlier read
returned does not change, stacks included. -/
theorem C22_snapshot_stable_partial (acts : List (Act W A)) (s : St W A)
    (hr : St.init.run acts = some s) (r : Read) (hm : r ∈ s.reads) :
    (r.handle ∈ held s ∨ ∃ gh, s.ghost r.handle.addr = some gh ∧ gh.cid = r.handle.cid) →
    r.snaps.map s.heap.view = r.seen := by
  obtain ⟨f, hinv⟩ := init_inv_run hr
  intro hh
  have : ∃ gh, s.ghost r.handle.addr = some gh ∧ gh.cid = r.handle.cid := by
    rcases hh with h | h
    · rw [held_eq hinv] at h; exact hinv.plive _ h
    · exact h
  obtain ⟨gh, h1, h2⟩ := this
  exact (hinv.reads r hm gh h1 h2).2

/-- **C22**, the part that holds without conditions: time, text and error flag of a snapshot
never change, whatever happens to the trace. -/
theorem C22_text_stable_partial (acts acts' : List (Act W A)) (s s' : St W A)
    (hr : St.init.run acts = some s) (hr' : s.run acts' = some s') (r : Read) (hm : r ∈ s.reads) :
    r ∈ s'.reads ∧
    (r.snaps.map s'.heap.view).map (fun e => (e.when_, e.what, e.isError)) =
      (r.snaps.map s.heap.view).map (fun e => (e.when_, e.what, e.isError)) := by
  refine ⟨?_, by simp [Heap.view]⟩
  clear hr
  induction acts' generalizing s with
  | nil => simp [St.run] at hr'; subst hr'; exact hm
  | cons act acts' ih =>
    simp only [St.run] at hr'
    cases ht : s.step act with
    | none => simp [ht] at hr'
    | some t =>
      simp only [ht, Option.bind_eq_bind, Option.bind_some] at hr'
      refine ih t hr' ?_
      cases act with
      | set x => simp [St.step] at ht; subst ht; exact hm
      | newCollector size => simp [St.step] at ht; subst ht; exact hm
      | new k now id source category ch => simp only [St.step, Option.some.injEq] at ht; subst ht; exact hm
      | getOrCreate k category => rw [(ring_same ht).2.2.1]; exact hm
      | add i =>
        simp only [St.step] at ht
        split at ht
        · simp only [Option.some.injEq] at ht; subst ht; exact hm
        · split at ht
          · simp only [Option.some.injEq] at ht; subst ht; exact hm
          · split at ht
            · rw [(ring_same ht).2.2.1]; exact hm
            · simp only [Option.some.injEq] at ht; subst ht; exact hm
      | beginResize k cap order => rw [(ring_same ht).2.2.1]; exact hm
      | resizeNext k => rw [(ring_same ht).2.2.1]; exact hm
      | free i =>
        simp only [St.step] at ht
        split at ht
        · simp only [Option.some.injEq] at ht; subst ht; exact hm
        · simp only [Option.bind_eq_bind, Option.bind_eq_some_iff] at ht
          obtain ⟨h', _, ht⟩ := ht
          simp only [Option.pure_def, Option.some.injEq] at ht
          subst ht; exact hm
      | call b env c ch =>
        simp only [St.step] at ht
        split at ht
        · simp only [Option.bind_eq_bind, Option.bind_eq_some_iff] at ht
          obtain ⟨p, _, ht⟩ := ht
          simp only [Option.pure_def, Option.some.injEq] at ht
          subst ht
          simp only
          split
          · exact List.mem_append_left _ hm
          · exact hm
        · simp only [Option.some.injEq] at ht; subst ht; exact hm
      | gcTrace i => simp [St.step] at ht; subst ht; exact hm
      | gcEvent i => simp [St.step] at ht; subst ht; exact hm
      | gcStr i => simp [St.step] at ht; subst ht; exact hm

/-- **C23**: the counters agree with each other and with what exists: traces requested are
allocated or reused; each requested trace has been returned to the pool, was counted as lost, or
is held by the collector; each requested event (and stringer) was returned or is in a trace. -/
theorem C23_counters (acts : List (Act W A)) (s : St W A)
    (hr : St.init.run acts = some s) :
    s.heap.n.traceAlloc ≤ s.heap.n.traceNew ∧
    s.heap.n.traceFree ≤ s.heap.n.traceNew ∧
    s.heap.n.traceAlloc = s.heap.nextT ∧
    s.heap.n.traceNew = s.heap.n.traceFree + s.heap.n.traceLost + (held s).length ∧
    s.heap.n.eventNew = s.heap.n.eventFree + totalEvents s.heap s.heap.nextT ∧
    s.heap.n.strNew = s.heap.n.strFree + totalEvents s.heap s.heap.nextT := by
  obtain ⟨f, hinv⟩ := init_inv_run hr
  rw [held_eq hinv]
  have := hinv.count
  exact ⟨hinv.allocLe, by omega, hinv.alloc, this, hinv.evCount, hinv.strCount⟩


/-! ## Violations and examples -/

section Examples

private abbrev EW := Nat → Nat

private def tick (t : Int) : Env EW := { now := { wall := 1000 + t, mono := some t }, w := fun _ => 7 }

private def exCallers : List StdFrame := [⟨"main.f", "/x/y.go", 3⟩, ⟨"main.main", "/x/z.go", 9⟩]

private def exCallers' : List StdFrame := [⟨"main.other", "/x/o.go", 5⟩, ⟨"main.main", "/x/z.go", 9⟩]

/-- One collector, one slot per category. Trace A logs one event and is finished, B takes its place, A is freed. -/
private def exDrop : List (Act EW Nat) :=
  [.newCollector 1, .new 0 (tick 0).now "A" "src" "cat" {}, .getOrCreate 0 "cat", .add 0,
   .call 0 (tick 1) (.log .tracef "hello" [] exCallers) {}, .call 0 (tick 2) .finish {},
   .call 0 (tick 3) (.read (-1) true) {}]

private def exReuse : List (Act EW Nat) :=
  [.new 0 (tick 4).now "B" "src" "cat" {}, .getOrCreate 0 "cat", .add 0, .free 0,
   .new 0 (tick 5).now "C" "src" "cat" { trace := some 0 }]

private def exLate : List (Act EW Nat) := [.call 0 (tick 6) (.log .errorf "late call on A" [] []) {}]

private def exLog : List (Act EW Nat) :=
  [.call 0 (tick 6) (.log .tracef "x" [] exCallers') { event := some 0 }, .call 0 (tick 7) (.read (-1) true) {}]

/-- What `ID`, `Finished`, `Errored` and `Events` report through a pointer to `a`. -/
private def shows (h : Heap Nat) (a : Nat) : String × Bool × Bool × Option (List String) :=
  ((absTrace h a).id, (absTrace h a).finished, (absTrace h a).errored,
   ((absTrace h a).events' (tick 9)).map (fun l => l.map (·.what)))

private theorem observe {α : Type} [DecidableEq α] {acts : List (Act EW Nat)} {s : St EW Nat} (hr : St.init.run acts = some s)
    (f : St EW Nat → α) (v : α) (h : decide ((St.init.run acts).map f = some v) = true) : f s = v := by
  have := of_decide_eq_true h
  rw [hr] at this
  exact Option.some.inj this

/-- **C21** does not hold after the trace was dropped: the old handle (address 0, trace A,
finished) reports another trace, without any call having been made through it, and a late call
through it adds an event to that other, active trace. -/
theorem C21_stale_handle_violated :
    ∃ s₁ s₂ s₃ : St EW Nat, St.init.run exDrop = some s₁ ∧ s₁.run exReuse = some s₂ ∧ s₂.run exLate = some s₃ ∧
      callsAt 0 exReuse = [] ∧
      shows s₁.heap 0 = ("A", true, false, some ["hello[]"]) ∧
      shows s₂.heap 0 = ("C", false, false, some []) ∧
      shows s₃.heap 0 = ("C", false, true, some ["late call on A[]"]) := by
  obtain ⟨s₁, f₁, h1, i1⟩ := inv_run (inv_init (W := EW) (A := Nat)) exDrop
  obtain ⟨s₂, f₂, h2, i2⟩ := inv_run i1 exReuse
  obtain ⟨s₃, f₃, h3, i3⟩ := inv_run i2 exLate
  have h2' : St.init.run (exDrop ++ exReuse) = some s₂ := by rw [run_append', h1]; exact h2
  have h3' : St.init.run (exDrop ++ exReuse ++ exLate) = some s₃ := by rw [run_append', h2']; exact h3
  exact ⟨s₁, s₂, s₃, h1, h2, h3, rfl, observe h1 (fun s => shows s.heap 0) _ (by decide +kernel),
    observe h2' (fun s => shows s.heap 0) _ (by decide +kernel),
    observe h3' (fun s => shows s.heap 0) _ (by decide +kernel)⟩

/-- **C22** does not hold after the trace was dropped: the stack in a snapshot taken of A's
event changes when A's event object is used for an event of C. -/
theorem C22_stack_overwritten_violated :
    ∃ s₁ s₂ : St EW Nat, St.init.run exDrop = some s₁ ∧ s₁.run (exReuse ++ exLog) = some s₂ ∧
      (s₁.reads.map fun r => r.snaps.map s₁.heap.view) =
        [[⟨(tick 1).now, "hello[]", [⟨"main.f", "/x/y.go:3"⟩], false⟩]] ∧
      (s₁.reads.map fun r => r.snaps.map s₂.heap.view) =
        [[⟨(tick 1).now, "hello[]", [⟨"main.other", "/x/o.go:5"⟩], false⟩]] := by
  obtain ⟨s₁, f₁, h1, i1⟩ := inv_run (inv_init (W := EW) (A := Nat)) exDrop
  obtain ⟨s₂, f₂, h2, i2⟩ := inv_run i1 (exReuse ++ exLog)
  have h2' : St.init.run (exDrop ++ (exReuse ++ exLog)) = some s₂ := by rw [run_append', h1]; exact h2
  have e : s₁.reads = s₂.reads.take 1 := by
    have a := C22_text_stable_partial exDrop (exReuse ++ exLog) s₁ s₂ h1 h2
    have l1 := observe h1 (fun s => s.reads.length) 1 (by decide +kernel)
    have l2 := observe h2' (fun s => s.reads.map (fun r => r.handle.cid)) [0, 2] (by decide +kernel)
    have l1' := observe h1 (fun s => s.reads.map (fun r => r.handle.cid)) [0] (by decide +kernel)
    have l3 := observe h2' (fun s => s.reads.length) 2 (by decide +kernel)
    obtain ⟨r, hr⟩ := List.length_eq_one_iff.mp l1
    obtain ⟨x, y, hr'⟩ : ∃ x y, s₂.reads = [x, y] := by
      have l3 : s₂.reads.length = 2 := l3
      revert l3
      cases s₂.reads with
      | nil => intro h; cases h
      | cons x t =>
        intro h
        obtain ⟨y, hy⟩ := List.length_eq_one_iff.mp (Nat.succ.inj h)
        exact ⟨x, y, by rw [hy]⟩
    have m := (a r (by rw [hr]; simp)).1
    simp only [hr, hr', List.map_cons, List.map_nil, List.cons.injEq, and_true, List.mem_cons,
      List.not_mem_nil, or_false] at l2 l1' m ⊢
    rcases m with rfl | rfl
    · rfl
    · omega
  refine ⟨s₁, s₂, h1, h2, observe h1 (fun s => s.reads.map fun r => r.snaps.map s.heap.view) _ (by decide +kernel), ?_⟩
  rw [e]
  refine observe h2' (fun s => (s.reads.take 1).map fun r => r.snaps.map s.heap.view) _ ?_
  decide +kernel

/-- The hypotheses of the C19 and C20 statements on a run that reuses objects: C is held, active
and lives at the address A had. -/
example : (St.init.run (exDrop ++ exReuse)).map (fun s => (held s, s.heap.n.traceNew, s.heap.n.traceAlloc,
    s.heap.n.traceFree, s.heap.n.eventFree)) = some ([⟨0, 2⟩, ⟨1, 1⟩], 3, 2, 1, 1) := by decide +kernel

/-- A trace dropped while active (C19, second part): freeing it counts it as lost. -/
example : (St.init.run (W := EW) (A := Nat)
      [.newCollector 1, .new 0 (tick 0).now "A" "src" "cat" {}, .getOrCreate 0 "cat", .add 0,
       .new 0 (tick 1).now "B" "src" "cat" {}, .add 0]).map (fun s => (s.pending[0]?, (s.step (.free 0)).map
        (fun s' => (s'.heap.n.traceLost, s'.heap.tracePool)))) = some (some ⟨0, 0⟩, some (1, [])) := by decide +kernel

/-- A read of a finished trace that is still held (C21, C22). -/
example : (St.init.run exDrop).map (fun s => (s.reads.map (·.handle), held s)) =
    some ([⟨0, 0⟩], [⟨0, 0⟩]) ∧ finishedAt (callsAt 0 exDrop) ≠ none := by
  refine ⟨by decide +kernel, by simp [finishedAt, callsAt, exDrop]⟩

end Examples

end Trc.Heap
