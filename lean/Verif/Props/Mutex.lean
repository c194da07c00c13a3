import Verif.Mutex.Model
import Verif.Core.Model
import Verif.Ring.Model

/-! # Property C08: operations under one mutex behave as if run one at a time -/

namespace Trc.Mutex

variable {σ L R : Type}

theorem seqState_append (s₀ : σ) (a b : List (Op σ L R)) :
    seqState s₀ (a ++ b) = seqState (seqState s₀ a) b := by
  induction a generalizing s₀ with
  | nil => rfl
  | cons op a ih => exact ih _

theorem seqResults_append (s₀ : σ) (a b : List (Op σ L R)) :
    seqResults s₀ (a ++ b) = seqResults s₀ a ++ seqResults (seqState s₀ a) b := by
  induction a generalizing s₀ with
  | nil => rfl
  | cons op a ih => simp [seqResults, seqState, ih]

theorem seqResults_length (s₀ : σ) (a : List (Op σ L R)) : (seqResults s₀ a).length = a.length := by
  induction a generalizing s₀ with
  | nil => rfl
  | cons op a ih => simp [seqResults, ih]

/-- The goroutine that holds the lock is alone, and what it still has to do leads to the
sequential outcome. -/
structure Inv (s₀ : σ) (s : St σ L R) : Prop where
  free : s.locked = false → s.shared = seqState s₀ s.acquired
  freeThreads : s.locked = false → ∀ i k op l rest, s.thread i ≠ .holding k op l rest
  held : s.locked = true → ∃ i k op l rest pre, s.thread i = .holding k op l rest ∧
    s.acquired = pre ++ [op] ∧ k = pre.length ∧
    runSteps rest s.shared l = runSteps op.steps (seqState s₀ pre) op.init ∧
    ∀ j k' op' l' rest', s.thread j = .holding k' op' l' rest' → j = i
  unlocked : ∀ i k r, s.thread i = .unlocked k r → (seqResults s₀ s.acquired)[k]? = some r
  returned : ∀ p ∈ s.returned, (seqResults s₀ s.acquired)[p.1]? = some p.2

theorem inv_init (s₀ : σ) : Inv s₀ (St.init s₀ : St σ L R) := by
  constructor
  · intro _; rfl
  · intro _ i k op l rest h; simp [St.init] at h
  · intro h; simp [St.init] at h
  · intro i k r h; simp [St.init] at h
  · intro p h; simp [St.init] at h

theorem getElem?_seqResults_append {s₀ : σ} {a b : List (Op σ L R)} {k : Nat} {r : R}
    (h : (seqResults s₀ a)[k]? = some r) : (seqResults s₀ (a ++ b))[k]? = some r := by
  rw [seqResults_append, List.getElem?_append_left]
  · exact h
  · rw [List.getElem?_eq_some_iff] at h; exact h.1

/-- Changing a thread to something that neither holds nor has unlocked keeps the
invariant, if it did not hold before. -/
theorem Inv.setQuiet {s₀ : σ} {s : St σ L R} (h : Inv s₀ s) (i : Nat) (t : Thread σ L R)
    (hold : ∀ k op l rest, s.thread i ≠ .holding k op l rest)
    (ht : ∀ k op l rest, t ≠ .holding k op l rest) (hu : ∀ k r, t ≠ .unlocked k r) :
    Inv s₀ (s.set i t) := by
  constructor
  · exact h.free
  · intro hl j k op l rest hj
    simp only [St.set] at hj
    split at hj
    · exact ht _ _ _ _ hj
    · exact h.freeThreads hl _ _ _ _ _ hj
  · intro hl
    obtain ⟨j, k, op, l, rest, pre, h1, h2, h3, h4, h5⟩ := h.held hl
    have hji : j ≠ i := fun e => hold k op l rest (by rw [← e]; exact h1)
    refine ⟨j, k, op, l, rest, pre, by simp [St.set, hji, h1], h2, h3, h4, ?_⟩
    intro j' k' op' l' rest' hj'
    simp only [St.set] at hj'
    split at hj'
    · exact absurd hj' (ht _ _ _ _)
    · exact h5 _ _ _ _ _ hj'
  · intro j k r hj
    simp only [St.set] at hj
    split at hj
    · exact absurd hj (hu _ _)
    · exact h.unlocked _ _ _ hj
  · exact h.returned

theorem inv_step {s₀ : σ} {s : St σ L R} (h : Inv s₀ s) (a : Action σ L R) : Inv s₀ (s.step a) := by
  cases a with
  | call i op =>
    simp only [St.step]
    cases ht : s.thread i with
    | idle => exact h.setQuiet i _ (by simp [ht]) (by simp) (by simp)
    | waiting => exact h
    | holding => exact h
    | unlocked => exact h
  | sched i =>
    simp only [St.step]
    cases ht : s.thread i with
    | idle => exact h
    | waiting op =>
      simp only
      cases hl : s.locked with
      | true => simpa using h
      | false =>
        simp only [Bool.false_eq_true, if_false]
        constructor
        · intro h; simp at h
        · intro h; simp at h
        · intro _
          refine ⟨i, s.acquired.length, op, op.init, op.steps, s.acquired, by simp [St.set], rfl, rfl, ?_, ?_⟩
          · simp only [St.set]; rw [h.free hl]
          · intro j k' op' l' rest' hj
            simp only [St.set] at hj
            split at hj
            · assumption
            · exact absurd hj (h.freeThreads hl _ _ _ _ _)
        · intro j k r hj
          simp only [St.set] at hj
          split at hj
          · simp at hj
          · exact getElem?_seqResults_append (h.unlocked _ _ _ hj)
        · intro p hp
          exact getElem?_seqResults_append (h.returned p hp)
    | holding k op l rest =>
      have hlk : s.locked = true := by
        cases hl : s.locked with
        | true => rfl
        | false => exact absurd ht (h.freeThreads hl _ _ _ _ _)
      obtain ⟨i', k', op', l', rest', pre, h1, h2, h3, h4, h5⟩ := h.held hlk
      obtain rfl := h5 i k op l rest ht
      rw [ht] at h1
      simp only [Thread.holding.injEq] at h1
      obtain ⟨rfl, rfl, rfl, rfl⟩ := h1
      cases rest with
      | nil =>
        simp only
        have hrun : (s.shared, l) = runSteps op.steps (seqState s₀ pre) op.init := h4
        constructor
        · intro _
          simp only [St.set]
          rw [h2, seqState_append]
          simp only [seqState, Op.run, ← hrun]
        · intro _ j k op l rest hj
          simp only [St.set] at hj
          split at hj
          · simp at hj
          · rename_i hne; exact hne (h5 _ _ _ _ _ hj)
        · intro hl; simp at hl
        · intro j k' r hj
          simp only [St.set] at hj
          split at hj
          · simp only [Thread.unlocked.injEq] at hj
            obtain ⟨rfl, rfl⟩ := hj
            simp only [St.set]
            rw [h2, seqResults_append, List.getElem?_append_right (by rw [seqResults_length]; omega),
              seqResults_length, h3, Nat.sub_self]
            simp [seqResults, Op.run, ← hrun]
          · exact h.unlocked _ _ _ hj
        · exact h.returned
      | cons f fs =>
        simp only
        constructor
        · intro hl; simp [St.set, hlk] at hl
        · intro hl; simp [St.set, hlk] at hl
        · intro _
          refine ⟨i, k, op, (f s.shared l).2, fs, pre, by simp [St.set], h2, h3, h4, ?_⟩
          intro j k' op' l' rest' hj
          simp only [St.set] at hj
          split at hj
          · assumption
          · exact h5 _ _ _ _ _ hj
        · intro j k' r hj
          simp only [St.set] at hj
          split at hj
          · simp at hj
          · exact h.unlocked _ _ _ hj
        · exact h.returned
    | unlocked k r =>
      have hq := h.setQuiet i .idle (by simp [ht]) (by simp) (by simp)
      constructor
      · exact hq.free
      · exact hq.freeThreads
      · exact hq.held
      · exact hq.unlocked
      · intro p hp
        simp only [List.mem_append, List.mem_singleton] at hp
        rcases hp with hp | rfl
        · exact h.returned p hp
        · exact h.unlocked i k r ht

theorem inv_run {s₀ : σ} {s : St σ L R} (h : Inv s₀ s) (as : List (Action σ L R)) : Inv s₀ (s.run as) := by
  induction as generalizing s with
  | nil => exact h
  | cons a as ih => exact ih (inv_step h a)

/-- For any number of goroutines, any operations and any interleaving: whenever the lock is
free the object is in the state of running whole operations one at a time in lock order,
and each returned result is the one of its operation in that sequential run. -/
theorem C08_serializable (s₀ : σ) (as : List (Action σ L R)) :
    let s := (St.init s₀ : St σ L R).run as
    (s.locked = false → s.shared = seqState s₀ s.acquired) ∧
    (∀ p ∈ s.returned, (seqResults s₀ s.acquired)[p.1]? = some p.2) :=
  ⟨(inv_run (inv_init s₀) as).free, (inv_run (inv_init s₀) as).returned⟩

/-- While the lock is held exactly one goroutine is inside, and finishing its steps gives the
sequential state: nobody else can see or disturb the intermediate states. -/
theorem C08_exclusive (s₀ : σ) (as : List (Action σ L R)) :
    let s := (St.init s₀ : St σ L R).run as
    s.locked = true → ∃ i k op l rest, s.thread i = .holding k op l rest ∧
      (runSteps rest s.shared l).1 = seqState s₀ s.acquired ∧
      ∀ j k' op' l' rest', s.thread j = .holding k' op' l' rest' → j = i := by
  intro s hl
  obtain ⟨i, k, op, l, rest, pre, h1, h2, _, h4, h5⟩ := (inv_run (inv_init s₀) as).held hl
  refine ⟨i, k, op, l, rest, h1, ?_, h5⟩
  rw [h4, h2, seqState_append]
  rfl

theorem acquired_prefix (s : St σ L R) (as : List (Action σ L R)) : s.acquired <+: (s.run as).acquired := by
  induction as generalizing s with
  | nil => exact List.prefix_rfl
  | cons a as ih =>
    refine List.IsPrefix.trans ?_ (ih (s.step a))
    cases a with
    | call i op => simp only [St.step]; split <;> exact List.prefix_rfl
    | sched i =>
      simp only [St.step]
      split
      · exact List.prefix_rfl
      · split
        · exact List.prefix_rfl
        · exact List.prefix_append _ _
      · exact List.prefix_rfl
      · exact List.prefix_rfl
      · exact List.prefix_rfl

/-- The sequential order respects real time: an operation that returned before another was
called comes first in it. (Tickets are the positions in `acquired`.) -/
theorem C08_real_time (s₀ : σ) (as bs : List (Action σ L R)) (j : Nat)
    (hidle : ((St.init s₀ : St σ L R).run as).thread j = .idle) :
    let s := (St.init s₀ : St σ L R).run as
    let s' := s.run bs
    (∀ p ∈ s.returned, p.1 < s.acquired.length) ∧
    s.acquired <+: s'.acquired ∧
    (∀ k op l rest, s'.thread j = .holding k op l rest → s.acquired.length ≤ k) ∧
    (∀ k r, s'.thread j = .unlocked k r → s.acquired.length ≤ k) := by
  intro s s'
  have hinv : Inv s₀ s := inv_run (inv_init s₀) as
  refine ⟨?_, acquired_prefix s bs, ?_⟩
  · intro p hp
    have := hinv.returned p hp
    rw [List.getElem?_eq_some_iff] at this
    obtain ⟨h, _⟩ := this
    rwa [seqResults_length] at h
  · have key : ∀ (bs : List (Action σ L R)) (t : St σ L R), s.acquired.length ≤ t.acquired.length →
        (∀ k op l rest, t.thread j = .holding k op l rest → s.acquired.length ≤ k) →
        (∀ k r, t.thread j = .unlocked k r → s.acquired.length ≤ k) →
        (∀ k op l rest, (t.run bs).thread j = .holding k op l rest → s.acquired.length ≤ k) ∧
        (∀ k r, (t.run bs).thread j = .unlocked k r → s.acquired.length ≤ k) := by
      intro bs
      induction bs with
      | nil => intro t _ h1 h2; exact ⟨h1, h2⟩
      | cons a bs ih =>
        intro t hlen h1 h2
        have hlen' : s.acquired.length ≤ (t.step a).acquired.length :=
          Nat.le_trans hlen (acquired_prefix t [a]).length_le
        simp only [St.run]
        suffices H : (∀ k op l rest, (t.step a).thread j = .holding k op l rest → s.acquired.length ≤ k) ∧
            (∀ k r, (t.step a).thread j = .unlocked k r → s.acquired.length ≤ k) from
          ih _ hlen' H.1 H.2
        clear ih hlen'
        cases a with
        | call i op =>
          simp only [St.step]
          split
          · constructor
            · intro k op l rest h
              simp only [St.set] at h
              split at h
              · simp at h
              · exact h1 _ _ _ _ h
            · intro k r h
              simp only [St.set] at h
              split at h
              · simp at h
              · exact h2 _ _ h
          · exact ⟨h1, h2⟩
        | sched i =>
          simp only [St.step]
          cases ht : t.thread i with
          | idle => exact ⟨h1, h2⟩
          | waiting op =>
            simp only
            split
            · exact ⟨h1, h2⟩
            · constructor
              · intro k op l rest h
                simp only [St.set] at h
                split at h
                · simp only [Thread.holding.injEq] at h; omega
                · exact h1 _ _ _ _ h
              · intro k r h
                simp only [St.set] at h
                split at h
                · simp at h
                · exact h2 _ _ h
          | unlocked k r =>
            simp only
            constructor
            · intro k op l rest h
              simp only [St.set] at h
              split at h
              · simp at h
              · exact h1 _ _ _ _ h
            · intro k r h
              simp only [St.set] at h
              split at h
              · simp at h
              · exact h2 _ _ h
          | holding k op l rest =>
            cases rest with
            | nil =>
              simp only
              constructor
              · intro k' op' l' rest' h
                simp only [St.set] at h
                split at h
                · simp at h
                · exact h1 _ _ _ _ h
              · intro k' r h
                simp only [St.set] at h
                split at h
                · rename_i hji
                  simp only [Thread.unlocked.injEq] at h
                  obtain ⟨rfl, _⟩ := h
                  rw [← hji] at ht
                  exact h1 _ _ _ _ ht
                · exact h2 _ _ h
            | cons f fs =>
              simp only
              constructor
              · intro k' op' l' rest' h
                simp only [St.set] at h
                split at h
                · rename_i hji
                  simp only [Thread.holding.injEq] at h
                  obtain ⟨rfl, _⟩ := h
                  rw [← hji] at ht
                  exact h1 _ _ _ _ ht
                · exact h1 _ _ _ _ h
              · intro k' r h
                simp only [St.set] at h
                split at h
                · simp at h
                · exact h2 _ _ h
    exact key bs s (Nat.le_refl _) (by simp [s, hidle]) (by simp [s, hidle])

/-! ## On traces and ring buffers -/

/-- `op` does what `f` does, in however many steps. -/
def Op.Implements (op : Op σ L R) (f : σ → σ × R) : Prop := ∀ s, op.run s = f s

theorem seqState_implements {C : Type} (f : C → σ → σ × R) (impl : C → Op σ L R)
    (himpl : ∀ c, (impl c).Implements (f c)) (s : σ) (cs : List C) :
    seqState s (cs.map impl) = cs.foldl (fun s c => (f c s).1) s := by
  induction cs generalizing s with
  | nil => rfl
  | cons c cs ih => simp only [List.map_cons, seqState, List.foldl_cons, himpl c s, ih]

/-- Goroutines that only call operations drawn from `impl`. -/
def CallsOnly {C : Type} (impl : C → Op σ L R) (as : List (Action σ L R)) : Prop :=
  ∀ i op, Action.call i op ∈ as → ∃ c, op = impl c

theorem acquired_from {C : Type} (impl : C → Op σ L R) (as : List (Action σ L R)) (s : St σ L R)
    (h : CallsOnly impl as) (ht : ∀ i op, s.thread i = .waiting op → ∃ c, op = impl c)
    (hacq : ∃ cs : List C, s.acquired = cs.map impl) : ∃ cs : List C, (s.run as).acquired = cs.map impl := by
  induction as generalizing s with
  | nil => exact hacq
  | cons a as ih =>
    have h' : CallsOnly impl as := fun i op hm => h i op (List.mem_cons_of_mem _ hm)
    simp only [St.run]
    apply ih _ h'
    · intro i op hw
      cases a with
      | call j op' =>
        simp only [St.step] at hw
        split at hw
        · simp only [St.set] at hw
          split at hw
          · simp only [Thread.waiting.injEq] at hw
            subst hw
            exact h j _ (List.mem_cons_self ..)
          · exact ht i op hw
        · exact ht i op hw
      | sched j =>
        simp only [St.step] at hw
        split at hw
        · exact ht i op hw
        · split at hw
          · exact ht i op hw
          · simp only [St.set] at hw
            split at hw
            · simp at hw
            · exact ht i op hw
        all_goals
          simp only [St.set] at hw
          split at hw
          · simp at hw
          · exact ht i op hw
    · cases a with
      | call j op' => simp only [St.step]; split <;> exact hacq
      | sched j =>
        simp only [St.step]
        split
        · exact hacq
        · rename_i op hw
          split
          · exact hacq
          · obtain ⟨c, hc⟩ := ht j op hw
            obtain ⟨cs, hcs⟩ := hacq
            exact ⟨cs ++ [c], by simp [St.set, hcs, hc]⟩
        · exact hacq
        · exact hacq
        · exact hacq

open Trc.Core in
/-- A core trace used by any number of goroutines, each method being any sequence of steps
with the effect of the method: whenever the lock is free, the trace is in the state of
running some sequence of whole calls. -/
theorem C08_core_trace {W A : Type} [Sys W A] (impl : Env W × Call A → Op (Option (CoreTrace A)) L (List Event))
    (himpl : ∀ c, (impl c).Implements (fun tr =>
      match tr.bind (fun tr => tr.step c.1 c.2) with
      | none => (none, [])
      | some (tr', evs) => (some tr', evs)))
    (tr : CoreTrace A) (as : List (Action (Option (CoreTrace A)) L (List Event)))
    (hcalls : CallsOnly impl as) :
    let s := (St.init (some tr) : St (Option (CoreTrace A)) L (List Event)).run as
    s.locked = false → ∃ h : Hist W A, s.acquired = h.map impl ∧ s.shared = tr.run h := by
  intro s hl
  obtain ⟨h, hh⟩ := acquired_from impl as (St.init (some tr)) hcalls
    (by intro i op hw; simp [St.init] at hw) ⟨[], rfl⟩
  refine ⟨h, hh, ?_⟩
  rw [(inv_run (inv_init (some tr)) as).free hl, hh, seqState_implements _ impl himpl]
  have : ∀ (h : Hist W A) (t : Option (CoreTrace A)),
      h.foldl (fun tr c => (match tr.bind (fun tr => tr.step c.1 c.2) with
        | none => ((none : Option (CoreTrace A)), ([] : List Event))
        | some (tr', evs) => (some tr', evs)).1) t = t.bind (fun t => t.run h) := by
    intro h
    induction h with
    | nil => intro t; cases t <;> rfl
    | cons c h ih =>
      intro t
      simp only [List.foldl_cons]
      rw [ih]
      cases t with
      | none => rfl
      | some t =>
        simp only [Option.bind_some, CoreTrace.run]
        cases t.step c.1 c.2 with
        | none => rfl
        | some p => rfl
  rw [this]
  rfl

open Trc.Ring in
/-- The same for a ring buffer. -/
theorem C08_ring_buffer {α : Type} [Inhabited α] (impl : Ring.Op α → Op (Option (RB α)) L (List α))
    (himpl : ∀ c, (impl c).Implements (fun rb =>
      match rb.bind (fun rb => Ring.step rb c) with
      | none => (none, [])
      | some (rb', d) => (some rb', d)))
    (rb : RB α) (as : List (Action (Option (RB α)) L (List α))) (hcalls : CallsOnly impl as) :
    let s := (St.init (some rb) : St (Option (RB α)) L (List α)).run as
    s.locked = false → ∃ ops : List (Ring.Op α), s.acquired = ops.map impl ∧
      s.shared = (Ring.run rb ops).map Prod.fst := by
  intro s hl
  obtain ⟨h, hh⟩ := acquired_from impl as (St.init (some rb)) hcalls
    (by intro i op hw; simp [St.init] at hw) ⟨[], rfl⟩
  refine ⟨h, hh, ?_⟩
  rw [(inv_run (inv_init (some rb)) as).free hl, hh, seqState_implements _ impl himpl]
  have : ∀ (h : List (Ring.Op α)) (t : Option (RB α)),
      h.foldl (fun rb c => (match rb.bind (fun rb => Ring.step rb c) with
        | none => ((none : Option (RB α)), ([] : List α))
        | some (rb', d) => (some rb', d)).1) t = t.bind (fun t => (Ring.run t h).map Prod.fst) := by
    intro h
    induction h with
    | nil => intro t; cases t <;> rfl
    | cons c h ih =>
      intro t
      simp only [List.foldl_cons]
      rw [ih]
      cases t with
      | none => rfl
      | some t =>
        simp only [Option.bind_some, Ring.run]
        cases Ring.step t c with
        | none => rfl
        | some p => simp only [Option.bind_some]; cases hr : Ring.run p.1 h <;> simp [hr]
  rw [this]
  rfl

/-! ## Non-vacuity -/

/-- A counter incremented in two steps (read, then write back): without the lock two
goroutines could lose an update; here goroutine 1 waits although scheduled in between,
and gets the result 2. -/
private def incr : Op Nat Nat Nat :=
  { init := 0, steps := [fun s _ => (s, s), fun _ l => (l + 1, l + 1)], result := fun l => l }

example :
    let s := (St.init 0 : St Nat Nat Nat).run
      [.call 0 incr, .call 1 incr, .sched 0, .sched 0, .sched 1, .sched 1, .sched 0, .sched 0, .sched 1,
       .sched 0, .sched 1, .sched 1, .sched 1, .sched 1]
    s.shared = 2 ∧ s.returned = [(0, 1), (1, 2)] ∧ s.locked = false := by
  refine ⟨rfl, rfl, rfl⟩

/-- `Implements` can be met in several steps: a ring operation that first copies the buffer to
a local variable, then computes, then writes back. -/
example {α : Type} [Inhabited α] (c : Ring.Op α) :
    ({ init := (none, []), steps := [fun s _ => (s, (s, [])),
        fun s l => (s, match l.1.bind (fun rb => Ring.step rb c) with
          | none => (none, [])
          | some (rb', d) => (some rb', d)),
        fun _ l => (l.1, l)], result := fun l => l.2 } :
      Op (Option (Ring.RB α)) (Option (Ring.RB α) × List α) (List α)).Implements (fun rb =>
      match rb.bind (fun rb => Ring.step rb c) with
      | none => (none, [])
      | some (rb', d) => (some rb', d)) := by
  intro s; rfl

end Trc.Mutex
