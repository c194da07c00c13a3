import Verif.Race.Inv

/-!
# C96: data races
-/

set_option linter.unusedVariables false
set_option linter.unusedSimpArgs false

namespace Trc.Race

open Trc.Lock (Lock upd)

/-- The object has been taken from its pool twice. -/
def Reused (tr : List (Tid × Ev)) (o : Obj) : Prop :=
  ∃ (i j : Nat) (t t' : Tid), i < j ∧ tr[i]? = some (t, .get o) ∧ tr[j]? = some (t', .get o)

theorem Reused.mono {tr ys : Trace} {o : Obj} (h : Reused tr o) : Reused (tr ++ ys) o := by
  obtain ⟨i, j, t, t', hlt, hi, hj⟩ := h
  exact ⟨i, j, t, t', hlt, get_mono hi, get_mono hj⟩

/-- Lifetimes are counted right. -/
def Counted (s : St) : Prop := ∀ o, (1 ≤ s.gens o → ∃ (i : Nat) (t : Tid), s.tr[i]? = some (t, .get o)) ∧ (2 ≤ s.gens o → Reused s.tr o)

theorem counted_new {s s' : St} {t : Tid} {o : Obj} (h : Counted s) (ht : s'.tr = s.tr ++ [(t, .get o)])
    (hg : s'.gens = upd s.gens o (s.gens o + 1)) : Counted s' := by
  intro o'
  rw [ht, hg]
  by_cases ho : o' = o
  · subst ho
    rw [upd_same]
    refine ⟨fun _ => ⟨_, t, get_last _ _⟩, fun h2 => ?_⟩
    obtain ⟨i, t', hi⟩ := (h o').1 (by omega)
    exact ⟨i, _, t', t, lt_of_get hi, get_mono hi, get_last _ _⟩
  · rw [upd_ne _ _ ho]
    refine ⟨fun h1 => ?_, fun h2 => ((h o').2 h2).mono⟩
    obtain ⟨i, t', hi⟩ := (h o').1 h1
    exact ⟨i, t', get_mono hi⟩

theorem counted_keep {s s' : St} (h : Counted s) (ht : ∃ ys, s'.tr = s.tr ++ ys) (hg : s'.gens = s.gens) : Counted s' := by
  obtain ⟨ys, ht⟩ := ht
  intro o
  rw [ht, hg]
  refine ⟨fun h1 => ?_, fun h2 => ((h o).2 h2).mono⟩
  obtain ⟨i, t', hi⟩ := (h o).1 h1
  exact ⟨i, t', get_mono hi⟩

theorem counted {s : St} (h : Reach s) : Counted s := by
  induction h with
  | init => exact fun o => ⟨by simp, by simp⟩
  | step _ hs ih =>
    cases hs with
    | call t c hc => exact ih
    | @run s₁ t i rest hc he =>
      show Counted s₁
      have hp := exec_pre he
      cases i with
      | get o g =>
        simp only [exec] at he; split at he <;> cases he
        rename_i hg
        refine counted_new (t := t) (o := o) ih rfl ?_
        show upd _ _ _ = _
        rw [hg.2.2]
      | take a e =>
        simp only [exec] at he; split at he <;> cases he
        exact counted_new (t := t) (o := .part e) ih rfl rfl
      | _ => refine counted_keep ih hp ?_; simp only [exec] at he <;> (try split at he) <;> (try cases he) <;> rfl

/-! ## What is free of races -/

/-- Of two accesses to a location, at least one a write, the first happens before the second, unless they are accesses to an object
from a pool in different lifetimes, or appending to the arguments of a prefix. -/
theorem C96_ordered_partial (s : St) (h : Reach s) (i j : Nat) (t t' : Tid) (w w' : Bool) (l : Loc) (g g' : Nat)
    (hi : s.tr[i]? = some (t, .acc w l g)) (hj : s.tr[j]? = some (t', .acc w' l g')) (hlt : i < j) (hw : w = true ∨ w' = true) :
    HB s.tr i j ∨
    (∃ a, (l = .imm a ∨ l = .var a) ∧ g ≠ g' ∧ Reused s.tr (.trace a)) ∨
    (∃ e, l = .frames e ∧ g ≠ g' ∧ Reused s.tr (.part e)) ∨
    ∃ p, l = .args p := by
  have inv := inv_reach h
  have hb := inv.ordered i j t t' w w' l g g' hi hj hlt hw
  have ci := inv.acc _ _ _ _ _ hi
  have cj := inv.acc _ _ _ _ _ hj
  have two : ∀ o, 1 ≤ g → g ≤ s.gens o → 1 ≤ g' → g' ≤ s.gens o → g ≠ g' → Reused s.tr o := fun o h1 h2 h3 h4 h5 =>
    (counted h o).2 (by omega)
  cases l with
  | imm a =>
    by_cases hg : g = g'
    · exact .inl (hb hg)
    · exact .inr (.inl ⟨a, .inl rfl, hg, two _ ci.1 ci.2.1 cj.1 cj.2.1 hg⟩)
  | var a =>
    by_cases hg : g = g'
    · exact .inl (hb hg)
    · exact .inr (.inl ⟨a, .inr rfl, hg, two _ ci.1 ci.2.1 cj.1 cj.2.1 hg⟩)
  | frames e =>
    by_cases hg : g = g'
    · exact .inl (hb hg)
    · exact .inr (.inr (.inl ⟨e, rfl, hg, two _ ci.1 ci.2.1 cj.1 cj.2.1 hg⟩))
  | part e => exact .inl (hb trivial)
  | ring r => exact .inl (hb trivial)
  | set k => exact .inl (hb trivial)
  | broker b => exact .inl (hb trivial)
  | args p => exact .inr (.inr (.inr ⟨p, rfl⟩))

/-- As long as the pools give out each object once, and no prefix has capacity to spare, there are no data races. -/
theorem C96_race_free_partial (s : St) (h : Reach s) (hr : ∀ o, ¬ Reused s.tr o)
    (ha : ∀ (n : Nat) t w p g, s.tr[n]? ≠ some (t, .acc w (.args p) g)) (i j : Nat) : ¬ Racing s.tr i j := by
  rintro ⟨t, t', w, w', l, g, g', hi, hj, ht, hw, h1, h2⟩
  have no : ∀ p, l ≠ .args p := by
    rintro p rfl
    exact ha i _ _ _ _ hi
  rcases Nat.lt_trichotomy i j with hlt | rfl | hlt
  · rcases C96_ordered_partial s h i j t t' w w' l g g' hi hj hlt hw with hb | ⟨a, _, _, hb⟩ | ⟨e, _, _, hb⟩ | ⟨p, hb⟩
    · exact h1 hb
    · exact hr _ hb
    · exact hr _ hb
    · exact no p hb
  · rw [hi] at hj; cases hj; exact ht rfl
  · rcases C96_ordered_partial s h j i t' t w' w l g' g hj hi hlt hw.symm with hb | ⟨a, _, _, hb⟩ | ⟨e, _, _, hb⟩ | ⟨p, hb⟩
    · exact h2 hb
    · exact hr _ hb
    · exact hr _ hb
    · exact no p hb

/-! ## Runs -/

/-- What a goroutine does next: begin a call, or some operations of it. -/
inductive Act where
  | call (t : Tid) (c : Call)
  | run (t : Tid) (n : Nat)

/-- Some operations of a goroutine. -/
def runs (s : St) (t : Tid) : Nat → Option St
  | 0 => some s
  | n + 1 => match s.code t with
    | [] => none
    | i :: rest => match exec s t i with
      | none => none
      | some s' => runs { s' with code := upd s'.code t rest } t n

def play (s : St) : List Act → Option St
  | [] => some s
  | .call t c :: as => if (s.code t).isEmpty then play { s with code := upd s.code t c.code } as else none
  | .run t n :: as => match runs s t n with
    | none => none
    | some s' => play s' as

theorem reach_runs {s s' : St} {t : Tid} {n : Nat} (h : Reach s) (hr : runs s t n = some s') : Reach s' := by
  induction n generalizing s with
  | zero => cases hr; exact h
  | succ n ih =>
    rw [runs] at hr
    cases hc : s.code t with
    | nil => rw [hc] at hr; cases hr
    | cons i rest =>
      rw [hc] at hr
      simp only at hr
      cases he : exec s t i with
      | none => rw [he] at hr; cases hr
      | some s₁ => rw [he] at hr; exact ih (.step h (.run t i rest hc he)) hr

theorem reach_play {s s' : St} {as : List Act} (h : Reach s) (hp : play s as = some s') : Reach s' := by
  induction as generalizing s with
  | nil => cases hp; exact h
  | cons a as ih =>
    cases a with
    | call t c =>
      rw [play] at hp
      split at hp
      · rename_i he
        exact ih (.step h (.call t c (List.isEmpty_iff.mp he))) hp
      · cases hp
    | run t n =>
      rw [play] at hp
      cases hr : runs s t n with
      | none => rw [hr] at hp; cases hp
      | some s₁ => rw [hr] at hp; exact ih (reach_runs h hr) hp

/-- What a run leaves in the history. -/
def history (as : List Act) : Option (List (Tid × Ev)) := (play {} as).map (·.tr)

/-- The operations that an operation happens before, as a list. -/
def later (tr : List (Tid × Ev)) (i : Nat) : List Nat :=
  (List.range tr.length).foldl (fun acc k => if acc.any (fun x => edge tr x k) then k :: acc else acc) [i]

/-- The list contains what comes after its members. -/
def closed (tr : List (Tid × Ev)) (l : List Nat) : Bool :=
  l.all fun a => (List.range tr.length).all fun b => !edge tr a b || l.contains b

theorem edge_lt {tr : Trace} {i j : Nat} (h : edge tr i j = true) : j < tr.length := by
  unfold edge at h
  cases hj : tr[j]? with
  | none => cases hi : tr[i]? <;> simp [hi, hj] at h
  | some y => exact lt_of_get hj

theorem hb_closed {tr : Trace} {l : List Nat} {i j : Nat} (hc : closed tr l = true) (hi : i ∈ l) (h : HB tr i j) : j ∈ l := by
  have step : ∀ a b, a ∈ l → edge tr a b = true → b ∈ l := by
    intro a b ha he
    unfold closed at hc
    have := List.all_eq_true.mp (List.all_eq_true.mp hc a ha) b (List.mem_range.mpr (edge_lt he))
    simpa [he] using this
  induction h with
  | edge h => exact step _ _ hi h
  | trans _ h ih => exact step _ _ ih h

theorem HB.lt {tr : Trace} {i j : Nat} (h : HB tr i j) : i < j := by
  have : ∀ {a b}, Race.edge tr a b = true → a < b := by
    intro a b h
    unfold Race.edge at h
    simp only [Bool.and_eq_true, decide_eq_true_eq] at h
    exact h.1
  induction h with
  | edge h => exact this h
  | trans _ h ih => exact Nat.lt_trans ih (this h)

/-- The last operation does not come after the given one. -/
theorem racing {tr : Trace} {i j : Nat} {t t' : Tid} {w w' : Bool} {l : Loc} {g g' : Nat} (hi : tr[i]? = some (t, .acc w l g))
    (hj : tr[j]? = some (t', .acc w' l g')) (ht : t ≠ t') (hw : w = true ∨ w' = true) (hlt : i < j)
    (hc : closed tr (later tr i) = true) (hm : i ∈ later tr i) (hn : j ∉ later tr i) : Racing tr i j :=
  ⟨t, t', w, w', l, g, g', hi, hj, ht, hw, fun h => hn (hb_closed hc hm h), fun h => by have := h.lt; omega⟩

/-- Goroutine 0 creates a trace and finishes it, but has not yet published that.  Goroutine 1 creates another, which pushes the
first one out of its buffer of size one, so it is freed, and creates a third, for which the pool gives out the same object.  Now
goroutine 0 goes on, and publishes. -/
def finishRun : List Act :=
  [.call 0 (.newTrace ⟨0, 1⟩ 0 [] [] 0 0 true []), .run 0 21,
    .call 0 (.finish ⟨0, 1⟩ false [.pub 0 [.attr]]), .run 0 5,
    .call 1 (.newTrace ⟨1, 1⟩ 0 [] [] 0 0 false [(⟨0, 1⟩, some [])]), .run 1 23,
    .call 1 (.newTrace ⟨0, 2⟩ 0 [] [] 0 0 false []), .run 1 2, .run 0 3]

theorem reach_history {as : List Act} {tr : Trace} (h : history as = some tr) : ∃ s, Reach s ∧ s.tr = tr := by
  unfold history at h
  cases hp : play {} as with
  | none => rw [hp] at h; cases h
  | some s => rw [hp] at h; cases h; exact ⟨s, reach_play .init hp, rfl⟩

/-- What the runs below leave in the history. -/
def trOf (as : List Act) : Trace := (history as).getD []

theorem reach_trOf {as : List Act} (h : (history as).isSome = true) : ∃ s, Reach s ∧ s.tr = trOf as := by
  unfold trOf
  cases hh : history as with
  | none => rw [hh] at h; cases h
  | some tr => exact reach_history hh

/-- No object is taken twice. -/
def fresh (tr : Trace) : Bool :=
  (List.range tr.length).all fun i => (List.range tr.length).all fun j => match tr[i]?, tr[j]? with
    | some (_, .get o), some (_, .get o') => decide (j ≤ i) || decide (o ≠ o')
    | _, _ => true

theorem not_reused {tr : Trace} (h : fresh tr = true) (o : Obj) : ¬ Reused tr o := by
  rintro ⟨i, j, t, t', hlt, hi, hj⟩
  unfold fresh at h
  have := List.all_eq_true.mp (List.all_eq_true.mp h i (List.mem_range.mpr (lt_of_get hi))) j (List.mem_range.mpr (lt_of_get hj))
  rw [hi, hj] at this
  simp at this
  omega

/-- Nothing is appended to a prefix. -/
def argless (tr : Trace) : Bool := tr.all fun x => match x.2 with
  | .acc _ (.args _) _ => false
  | _ => true

theorem no_args {tr : Trace} (h : argless tr = true) (n : Nat) (t : Tid) (w : Bool) (p g : Nat) : tr[n]? ≠ some (t, .acc w (.args p) g) := by
  intro hn
  have := List.all_eq_true.mp h _ (List.mem_of_getElem? hn)
  simp at this

/-- The call of `Finish` that is publishing races with another goroutine's `NewTrace`, though nobody uses a finished
trace. -/
theorem C96_finish_violated : ∃ s, Reach s ∧ s.tr[42]? = some (1, .acc true (.imm 0) 2) ∧ s.tr[45]? = some (0, .acc false (.imm 0) 1) ∧
    Racing s.tr 42 45 := by
  obtain ⟨s, h, ht⟩ := reach_trOf (as := finishRun) (by decide +kernel)
  have h1 : (trOf finishRun)[42]? = some (1, .acc true (.imm 0) 2) := by decide +kernel
  have h2 : (trOf finishRun)[45]? = some (0, .acc false (.imm 0) 1) := by decide +kernel
  refine ⟨s, h, ?_⟩
  rw [ht]
  exact ⟨h1, h2, racing h1 h2 (by decide) (.inl rfl) (by decide) (by decide +kernel) (by decide +kernel) (by decide +kernel)⟩

/-- Goroutine 0 creates a trace, logs an event and finishes.  Goroutine 1 searches, and has the stack of the event in its results.
Goroutine 0 creates another trace, which pushes out the first one and frees its event, logs an event, for which the pool gives out
the same object, and has its stack computed.  Now goroutine 1 reads its results. -/
def searchRun : List Act :=
  [.call 0 (.newTrace ⟨0, 1⟩ 0 [] [] 0 0 true []), .run 0 21, .call 0 (.event ⟨0, 1⟩ (.stored [0]) []), .run 0 6,
    .call 0 (.finish ⟨0, 1⟩ false []), .run 0 5,
    .call 1 (.search 0 [(0, [(⟨0, 1⟩, [.events [.newStack 0 1]])])]), .run 1 14,
    .call 0 (.newTrace ⟨1, 1⟩ 0 [] [] 0 0 false [(⟨0, 1⟩, some [0])]), .run 0 25,
    .call 0 (.event ⟨1, 1⟩ (.stored [0]) []), .run 0 6, .call 0 (.look ⟨1, 1⟩ [.events [.newStack 0 2]]), .run 0 4,
    .call 1 (.look ⟨0, 1⟩ [.frames 0 1]), .run 1 1]

/-- Reading the results of a search races with reading the events of another trace. -/
theorem C96_search_violated : ∃ s, Reach s ∧ ∃ i j, i < j ∧ s.tr[i]? = some (0, .acc true (.frames 0) 2) ∧
    s.tr[j]? = some (1, .acc false (.frames 0) 1) ∧ Racing s.tr i j := by
  obtain ⟨s, h, ht⟩ := reach_trOf (as := searchRun) (by decide +kernel)
  have h1 : (trOf searchRun)[69]? = some (0, .acc true (.frames 0) 2) := by decide +kernel
  have h2 : (trOf searchRun)[70]? = some (1, .acc false (.frames 0) 1) := by decide +kernel
  refine ⟨s, h, 69, 70, by decide, ?_⟩
  rw [ht]
  exact ⟨h1, h2, racing h1 h2 (by decide) (.inl rfl) (by decide) (by decide +kernel) (by decide +kernel) (by decide +kernel)⟩

/-- Two goroutines use a prefixed trace whose arguments have capacity to spare. -/
def prefixRun : List Act :=
  [.call 0 (.new ⟨0, 1⟩), .run 0 4, .call 0 (.send 0 [(.trace 0, 1)]), .run 0 1, .call 1 (.recv 0 [(.trace 0, 1)]), .run 1 1,
    .call 0 (.event ⟨0, 1⟩ (.stored [0]) [.prefix 7 true]), .run 0 7, .call 1 (.event ⟨0, 1⟩ (.stored [1]) [.prefix 7 true]), .run 1 1]

/-- Logging to a prefixed trace races with logging to it. -/
theorem C96_prefix_violated : ∃ s, Reach s ∧ (∀ o, ¬ Reused s.tr o) ∧ ∃ i j, i < j ∧ s.tr[i]? = some (0, .acc true (.args 7) 0) ∧
    s.tr[j]? = some (1, .acc true (.args 7) 0) ∧ Racing s.tr i j := by
  obtain ⟨s, h, ht⟩ := reach_trOf (as := prefixRun) (by decide +kernel)
  have h1 : (trOf prefixRun)[5]? = some (0, .acc true (.args 7) 0) := by decide +kernel
  have h2 : (trOf prefixRun)[12]? = some (1, .acc true (.args 7) 0) := by decide +kernel
  refine ⟨s, h, ?_⟩
  rw [ht]
  exact ⟨not_reused (by decide +kernel), 5, 12, by decide, h1, h2,
    racing h1 h2 (by decide) (.inl rfl) (by decide) (by decide +kernel) (by decide +kernel) (by decide +kernel)⟩

/-! ## The theorems apply -/

/-- Goroutine 0 creates a trace, and logs an event.  Meanwhile goroutine 1 searches, and then changes the size of the buffers. -/
def sharedRun : List Act :=
  [.call 0 (.newTrace ⟨0, 1⟩ 0 [.attr] [] 0 0 true []), .run 0 22, .call 0 (.event ⟨0, 1⟩ (.stored [0, 1]) []), .run 0 8,
    .call 1 (.search 0 [(0, [(⟨0, 1⟩, [.attr, .flag, .events [.newStack 0 1, .plain 1]])])]), .run 1 19,
    .call 0 (.event ⟨0, 1⟩ (.stored [2]) [.pub 0 [.attr, .duration]]), .run 0 14, .call 1 (.setCategorySize 0 [(0, [])] []), .run 1 8]

/-- In this run no object is taken twice, nothing is appended to prefixes, and two goroutines write the same event, trace and
buffers. -/
example : ∃ s, Reach s ∧ (∀ o, ¬ Reused s.tr o) ∧ (∀ (n : Nat) t w p g, s.tr[n]? ≠ some (t, .acc w (.args p) g)) ∧
    (0, Ev.acc true (.part 0) 0) ∈ s.tr ∧ (1, Ev.acc true (.part 0) 0) ∈ s.tr ∧
    (0, Ev.acc true (.var 0) 1) ∈ s.tr ∧ (1, Ev.acc false (.var 0) 1) ∈ s.tr ∧
    (0, Ev.acc true (.ring 0) 1) ∈ s.tr ∧ (1, Ev.acc true (.ring 0) 1) ∈ s.tr := by
  obtain ⟨s, h, ht⟩ := reach_trOf (as := sharedRun) (by decide +kernel)
  refine ⟨s, h, ?_⟩
  rw [ht]
  refine ⟨not_reused (by decide +kernel), no_args (by decide +kernel), ?_⟩
  decide +kernel

end Trc.Race
