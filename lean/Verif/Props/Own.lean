import Verif.Wrap.Own
import Verif.Search.Filter
import Mathlib.Data.List.Forall2

/-!
# C131: looking at traces of other types

Searching for a trace and publishing it should not change it, whatever type it has.
-/

namespace Trc.Own

open Core (Event Frame)

/-! ## Specification -/

/-- The event, with frames taken off the end of its stack. -/
def Cut (e e' : Event) : Prop := ∃ n, e' = { e with stack := e.stack.take n }

/-- The slices of the traces point into memory. -/
def Fits (s : St) : Prop := ∀ tr ∈ s.traces, ∃ l, s.mem[tr.events.arr]? = some l ∧ tr.events.off + tr.events.len ≤ l.length

/-! ## Memory -/

theorem view_getElem? (m : Mem) (s : Slice) (k : Nat) :
    (s.view m)[k]? = if k < s.len then ((m[s.arr]?).getD [])[s.off + k]? else none := by
  unfold Slice.view
  rw [List.getElem?_take]
  split
  · rw [List.getElem?_drop]
  · rfl

theorem view_write (m : Mem) (s t : Slice) (f : Event → Event) (k : Nat) :
    (s.view (write m t f))[k]? = (s.view m)[k]?.map fun e =>
      if s.arr = t.arr ∧ t.off ≤ s.off + k ∧ s.off + k < t.off + t.len then f e else e := by
  rw [view_getElem?, view_getElem?]
  by_cases hk : k < s.len
  · rw [if_pos hk, if_pos hk]
    unfold write
    rw [List.getElem?_modify]
    by_cases ha : t.arr = s.arr
    · cases hm : m[s.arr]? with
      | none => simp
      | some l =>
        simp [ha]
    · cases hm : m[s.arr]? with
      | none => simp
      | some l =>
        have : ¬ s.arr = t.arr := fun h => ha h.symm
        simp [ha, this]
  · rw [if_neg hk, if_neg hk]; rfl

theorem view_write_same (m : Mem) (s : Slice) (f : Event → Event) : s.view (write m s f) = (s.view m).map f := by
  apply List.ext_getElem?
  intro k
  rw [view_write, List.getElem?_map]
  rw [view_getElem?]
  by_cases hk : k < s.len
  · rw [if_pos hk]
    congr 1
    funext e
    exact if_pos ⟨rfl, by omega, by omega⟩
  · rw [if_neg hk]; rfl

theorem view_write_other (m : Mem) (s t : Slice) (f : Event → Event) (h : s.arr ≠ t.arr) : s.view (write m t f) = s.view m := by
  apply List.ext_getElem?
  intro k
  rw [view_write]
  simp [h]

theorem view_alloc (m : Mem) (s : Slice) (evs : List Event) (h : s.arr < m.length) : s.view (alloc m evs).2 = s.view m := by
  unfold Slice.view alloc
  simp only
  rw [List.getElem?_append_left h]

theorem view_alloc_new (m : Mem) (evs : List Event) : (alloc m evs).1.view (alloc m evs).2 = evs := by
  unfold Slice.view alloc
  simp

theorem length_write (m : Mem) (t : Slice) (f : Event → Event) : (write m t f).length = m.length := by
  simp [write]

/-! ## Memory grows, and stacks are cut -/

/-- From `m` to `m'`, arrays were added and stacks cut. -/
def Grows (m m' : Mem) : Prop :=
  ∀ (a : Nat) (l : List Event), m[a]? = some l → ∃ l', m'[a]? = some l' ∧ List.Forall₂ Cut l l'

theorem Cut.refl (e : Event) : Cut e e := ⟨e.stack.length, by simp⟩

theorem Cut.trans {a b c : Event} (h : Cut a b) (h' : Cut b c) : Cut a c := by
  obtain ⟨n, rfl⟩ := h
  obtain ⟨n', rfl⟩ := h'
  exact ⟨min n' n, by simp [List.take_take]⟩

theorem forall2_refl (l : List Event) : List.Forall₂ Cut l l := by
  induction l with
  | nil => exact .nil
  | cons a l ih => exact .cons (Cut.refl a) ih

theorem forall2_trans {a b c : List Event} (h : List.Forall₂ Cut a b) (h' : List.Forall₂ Cut b c) : List.Forall₂ Cut a c := by
  induction h generalizing c with
  | nil => cases h'; exact .nil
  | cons hd _ ih =>
    cases h' with
    | cons hd' tl' => exact .cons (hd.trans hd') (ih tl')

theorem Grows.refl (m : Mem) : Grows m m := fun _ l h => ⟨l, h, forall2_refl l⟩

theorem Grows.trans {a b c : Mem} (h : Grows a b) (h' : Grows b c) : Grows a c := by
  intro i l hl
  obtain ⟨l', hl', h1⟩ := h i l hl
  obtain ⟨l'', hl'', h2⟩ := h' i l' hl'
  exact ⟨l'', hl'', forall2_trans h1 h2⟩

theorem grows_alloc (m : Mem) (evs : List Event) : Grows m (alloc m evs).2 := by
  intro a l hl
  refine ⟨l, ?_, forall2_refl l⟩
  have ha : a < m.length := by
    rcases Nat.lt_or_ge a m.length with h | h
    · exact h
    · rw [List.getElem?_eq_none h] at hl; cases hl
  simp only [alloc]
  rw [List.getElem?_append_left ha]
  exact hl

theorem forall2_mapIdx (f : Nat → Event → Event) (hf : ∀ j e, Cut e (f j e)) (l : List Event) :
    List.Forall₂ Cut l (l.mapIdx f) := by
  induction l generalizing f with
  | nil => exact .nil
  | cons a l ih =>
    rw [List.mapIdx_cons]
    exact .cons (hf 0 a) (ih _ fun j e => hf (j + 1) e)

theorem grows_write (m : Mem) (t : Slice) (f : Event → Event) (hf : ∀ e, Cut e (f e)) : Grows m (write m t f) := by
  intro a l hl
  unfold write
  rw [List.getElem?_modify, hl]
  by_cases ha : t.arr = a
  · refine ⟨_, by simp only [ha, if_true]; rfl, ?_⟩
    apply forall2_mapIdx
    intro j e
    split
    · exact hf e
    · exact Cut.refl e
  · exact ⟨l, by simp [ha], forall2_refl l⟩

theorem cut_clear (e : Event) : Cut e { e with stack := [] } := ⟨0, by simp⟩

theorem cut_trim (n : Nat) (e : Event) : Cut e (trimEvent n e) := by
  unfold trimEvent
  split
  · exact ⟨n, rfl⟩
  · exact Cut.refl e

theorem grows_trim (m : Mem) (st : Tr) (d : Int) : Grows m (trimStacks m st d) := by
  unfold trimStacks
  split
  · exact Grows.refl m
  · exact grows_write _ _ _ fun e => cut_trim _ e

theorem grows_getEvents (tr : Tr) (m : Mem) : Grows m (tr.getEvents m).2 := by
  unfold Tr.getEvents
  cases tr.kind
  · exact grows_alloc m _
  · exact grows_alloc m _
  · exact Grows.refl m

theorem grows_stream {m m' : Mem} {tr st : Tr} (h : newStreamTrace m tr = some (st, m')) : Grows m m' := by
  unfold newStreamTrace at h
  cases hk : tr.kind <;> cases hf : tr.finished <;> simp [hk, hf, Tr.detail] at h
  all_goals first
    | (obtain ⟨-, rfl⟩ := h; exact grows_alloc m _)
    | skip
  · obtain ⟨-, -, rfl⟩ := h
    exact (grows_getEvents tr m).trans (grows_write _ _ _ cut_clear)
  · obtain ⟨-, rfl⟩ := h
    exact (grows_getEvents tr m).trans (grows_write _ _ _ cut_clear)
  · obtain ⟨-, -, rfl⟩ := h
    exact (grows_getEvents tr m).trans (grows_write _ _ _ cut_clear)
  · obtain ⟨-, rfl⟩ := h
    exact (grows_getEvents tr m).trans (grows_write _ _ _ cut_clear)

theorem step_grows {s s' : St} {l : Look} (h : s.step l = some s') :
    Grows s.mem s'.mem ∧ ∃ new, s'.traces = s.traces ++ new := by
  cases l with
  | search i d =>
    simp only [St.step, Option.bind_eq_bind, Option.bind_eq_some_iff] at h
    obtain ⟨tr, -, h⟩ := h
    simp only [pure, Option.some.injEq] at h
    subst h
    exact ⟨(grows_getEvents tr s.mem).trans (grows_trim _ _ _), [_], rfl⟩
  | publish i n =>
    simp only [St.step, Option.bind_eq_bind, Option.bind_eq_some_iff] at h
    obtain ⟨tr, -, h⟩ := h
    split at h
    · simp only [pure, Option.some.injEq] at h
      subst h
      exact ⟨Grows.refl _, [], by simp⟩
    · simp only [Option.bind_eq_some_iff] at h
      obtain ⟨⟨st, m⟩, hst, h⟩ := h
      simp only [pure, Option.some.injEq] at h
      subst h
      exact ⟨grows_stream hst, [_], rfl⟩
  | trim i d =>
    simp only [St.step, Option.bind_eq_bind, Option.bind_eq_some_iff] at h
    obtain ⟨tr, -, h⟩ := h
    split at h <;> simp only [pure, Option.some.injEq] at h <;> subst h
    · exact ⟨grows_trim _ _ _, [], by simp⟩
    · exact ⟨Grows.refl _, [], by simp⟩

theorem run_grows {ls : List Look} : ∀ {s s' : St}, s.run ls = some s' →
    Grows s.mem s'.mem ∧ ∃ new, s'.traces = s.traces ++ new := by
  induction ls with
  | nil => intro s s' h; obtain rfl := Option.some.inj h; exact ⟨Grows.refl _, [], by simp⟩
  | cons l ls ih =>
    intro s s' h
    simp only [St.run, Option.bind_eq_some_iff] at h
    obtain ⟨s1, h1, h2⟩ := h
    obtain ⟨g1, n1, e1⟩ := step_grows h1
    obtain ⟨g2, n2, e2⟩ := ih h2
    exact ⟨g1.trans g2, n1 ++ n2, by rw [e2, e1, List.append_assoc]⟩

theorem forall2_drop {a b : List Event} (h : List.Forall₂ Cut a b) (n : Nat) : List.Forall₂ Cut (a.drop n) (b.drop n) := by
  induction h generalizing n with
  | nil => simp
  | cons hd tl ih =>
    cases n with
    | zero => exact .cons hd tl
    | succ n => exact ih n

theorem forall2_take {a b : List Event} (h : List.Forall₂ Cut a b) (n : Nat) : List.Forall₂ Cut (a.take n) (b.take n) := by
  induction h generalizing n with
  | nil => simp
  | cons hd tl ih =>
    cases n with
    | zero => exact .nil
    | succ n => exact .cons hd (ih n)

/-- C131, what is true of all traces: whatever is done, a trace shows as many events as before, with the same times, texts
and error marks, and what is left of each stack is the beginning of what was there. -/
theorem C131_only_stacks_partial (s s' : St) (hs : Fits s) (ls : List Look) (h : s.run ls = some s') (i : Nat) (evs : List Event)
    (hi : s.shown i = some evs) : ∃ evs', s'.shown i = some evs' ∧ List.Forall₂ Cut evs evs' := by
  obtain ⟨g, new, e⟩ := run_grows h
  unfold St.shown at hi ⊢
  cases ht : s.traces[i]? with
  | none => rw [ht] at hi; cases hi
  | some tr =>
    rw [ht] at hi
    obtain rfl := Option.some.inj hi
    have hlt : i < s.traces.length := by
      rcases Nat.lt_or_ge i s.traces.length with h | h
      · exact h
      · rw [List.getElem?_eq_none h] at ht; cases ht
    rw [e, List.getElem?_append_left hlt, ht]
    refine ⟨_, rfl, ?_⟩
    obtain ⟨l, hl, -⟩ := hs tr (List.mem_of_getElem? ht)
    obtain ⟨l', hl', hc⟩ := g _ _ hl
    simp only [Slice.view]
    rw [hl, hl']
    exact forall2_take (forall2_drop hc _) _

/-! ## Traces whose `Events` makes copies -/

/-- The array is there, and no trace that gives its own slice away has it. -/
def Apart (s : St) (a : Nat) : Prop := a < s.mem.length ∧ ∀ tr ∈ s.traces, tr.kind = .shares → tr.events.arr ≠ a

theorem write_other (m : Mem) (t : Slice) (f : Event → Event) (a : Nat) (h : t.arr ≠ a) : (write m t f)[a]? = m[a]? := by
  unfold write
  rw [List.getElem?_modify]
  simp [h]

theorem trim_other (m : Mem) (st : Tr) (d : Int) (a : Nat) (h : st.events.arr ≠ a) : (trimStacks m st d)[a]? = m[a]? := by
  unfold trimStacks
  split
  · rfl
  · exact write_other _ _ _ _ h

theorem trim_length (m : Mem) (st : Tr) (d : Int) : (trimStacks m st d).length = m.length := by
  unfold trimStacks
  split
  · rfl
  · exact length_write _ _ _

theorem alloc_other (m : Mem) (evs : List Event) (a : Nat) (h : a < m.length) : (alloc m evs).2[a]? = m[a]? := by
  simp only [alloc]
  exact List.getElem?_append_left h

theorem getEvents_apart {s : St} {a : Nat} (hs : Apart s a) {tr : Tr} (ht : tr ∈ s.traces) :
    (tr.getEvents s.mem).1.arr ≠ a ∧ (tr.getEvents s.mem).2[a]? = s.mem[a]? ∧ a < (tr.getEvents s.mem).2.length := by
  unfold Tr.getEvents
  cases hk : tr.kind
  case shares => exact ⟨hs.2 tr ht hk, rfl, hs.1⟩
  all_goals
    refine ⟨?_, alloc_other _ _ _ hs.1, ?_⟩
    · have := hs.1
      simp only [alloc]
      omega
    · have := hs.1
      simp only [alloc, List.length_append]
      omega

theorem stream_apart {s : St} {a : Nat} (hs : Apart s a) {tr st : Tr} {m' : Mem} (ht : tr ∈ s.traces)
    (h : newStreamTrace s.mem tr = some (st, m')) : st.events.arr ≠ a ∧ m'[a]? = s.mem[a]? ∧ a < m'.length := by
  have hg := getEvents_apart hs ht
  unfold newStreamTrace at h
  cases hk : tr.kind <;> cases hf : tr.finished <;> simp [hk, hf, Tr.detail] at h
  case detail.false | detail.true =>
    obtain ⟨rfl, rfl⟩ := h
    have := hs.1
    refine ⟨?_, alloc_other _ _ _ hs.1, ?_⟩
    · simp only [alloc]; omega
    · simp only [alloc, List.length_append]; omega
  case copies.false | shares.false =>
    obtain ⟨-, rfl, rfl⟩ := h
    refine ⟨hg.1, ?_, ?_⟩
    · rw [write_other]
      · exact hg.2.1
      · exact hg.1
    · rw [length_write]; exact hg.2.2
  case copies.true | shares.true =>
    obtain ⟨rfl, rfl⟩ := h
    refine ⟨hg.1, ?_, ?_⟩
    · rw [write_other _ _ _ _ hg.1]; exact hg.2.1
    · rw [length_write]; exact hg.2.2

theorem step_apart {s s' : St} {a : Nat} (hs : Apart s a) {l : Look} (h : s.step l = some s') :
    Apart s' a ∧ s'.mem[a]? = s.mem[a]? := by
  cases l with
  | search i d =>
    simp only [St.step, Option.bind_eq_bind, Option.bind_eq_some_iff] at h
    obtain ⟨tr, ht, h⟩ := h
    simp only [pure, Option.some.injEq] at h
    subst h
    have hg := getEvents_apart hs (List.mem_of_getElem? ht)
    refine ⟨⟨?_, ?_⟩, ?_⟩
    · simp only [newSearchTrace, trim_length]; exact hg.2.2
    · intro tr' htr' hk
      rcases List.mem_append.1 htr' with h | h
      · exact hs.2 tr' h hk
      · obtain rfl := List.mem_singleton.1 h
        exact hg.1
    · simp only [newSearchTrace]
      rw [trim_other _ _ _ _ hg.1]
      exact hg.2.1
  | publish i n =>
    simp only [St.step, Option.bind_eq_bind, Option.bind_eq_some_iff] at h
    obtain ⟨tr, ht, h⟩ := h
    split at h
    · simp only [pure, Option.some.injEq] at h
      subst h
      exact ⟨hs, rfl⟩
    · simp only [Option.bind_eq_some_iff] at h
      obtain ⟨⟨st, m⟩, hst, h⟩ := h
      simp only [pure, Option.some.injEq] at h
      subst h
      have hg := stream_apart hs (List.mem_of_getElem? ht) hst
      refine ⟨⟨hg.2.2, ?_⟩, hg.2.1⟩
      intro tr' htr' hk
      rcases List.mem_append.1 htr' with h | h
      · exact hs.2 tr' h hk
      · obtain rfl := List.mem_singleton.1 h
        exact hg.1
  | trim i d =>
    simp only [St.step, Option.bind_eq_bind, Option.bind_eq_some_iff] at h
    obtain ⟨tr, ht, h⟩ := h
    split at h <;> rename_i hk <;> simp only [pure, Option.some.injEq] at h <;> subst h
    · have hne := hs.2 tr (List.mem_of_getElem? ht) hk
      exact ⟨⟨by simp only [trim_length]; exact hs.1, hs.2⟩, trim_other _ _ _ _ hne⟩
    · exact ⟨hs, rfl⟩

theorem run_apart {a : Nat} {ls : List Look} : ∀ {s s' : St}, Apart s a → s.run ls = some s' → s'.mem[a]? = s.mem[a]? := by
  induction ls with
  | nil => intro s s' _ h; obtain rfl := Option.some.inj h; rfl
  | cons l ls ih =>
    intro s s' hs h
    simp only [St.run, Option.bind_eq_some_iff] at h
    obtain ⟨s1, h1, h2⟩ := h
    obtain ⟨hs1, e1⟩ := step_apart hs h1
    rw [ih hs1 h2, e1]

/-- C131 for traces whose `Events` makes copies, as those of trc do: whatever is searched, published or trimmed, they
show what they showed, provided that their events are not also in a trace that gives its own slice away
(so `tr` itself does not). -/
theorem C131_copies_partial (s s' : St) (hs : Fits s) (ls : List Look) (h : s.run ls = some s') (i : Nat) (tr : Tr) (hi : s.traces[i]? = some tr)
    (ha : ∀ tr' ∈ s.traces, tr'.kind = .shares → tr'.events.arr ≠ tr.events.arr) :
    s'.shown i = s.shown i := by
  obtain ⟨l, hl, -⟩ := hs tr (List.mem_of_getElem? hi)
  have hlt : tr.events.arr < s.mem.length := by
    rcases Nat.lt_or_ge tr.events.arr s.mem.length with h | h
    · exact h
    · rw [List.getElem?_eq_none h] at hl; cases hl
  obtain ⟨-, new, e⟩ := run_grows h
  have hit : i < s.traces.length := by
    rcases Nat.lt_or_ge i s.traces.length with h | h
    · exact h
    · rw [List.getElem?_eq_none h] at hi; cases hi
  unfold St.shown
  rw [e, List.getElem?_append_left hit, hi]
  simp only [Option.map_some, Slice.view]
  rw [run_apart ⟨hlt, ha⟩ h]

/-! ## One look at a trace that gives its own slice away -/

theorem getEvents_view (tr : Tr) (m : Mem) (h : tr.events.arr < m.length) : tr.events.view (tr.getEvents m).2 = tr.events.view m := by
  unfold Tr.getEvents
  cases tr.kind
  · exact view_alloc _ _ _ h
  · exact view_alloc _ _ _ h
  · rfl

theorem fits_lt {s : St} (hs : Fits s) {tr : Tr} {i : Nat} (hi : s.traces[i]? = some tr) : tr.events.arr < s.mem.length := by
  obtain ⟨l, hl, -⟩ := hs tr (List.mem_of_getElem? hi)
  rcases Nat.lt_or_ge tr.events.arr s.mem.length with h | h
  · exact h
  · rw [List.getElem?_eq_none h] at hl; cases hl

theorem shown_of {s : St} {tr : Tr} {i : Nat} (hi : s.traces[i]? = some tr) : s.shown i = some (tr.events.view s.mem) := by
  unfold St.shown; rw [hi]; rfl

theorem index_lt {s : St} {tr : Tr} {i : Nat} (hi : s.traces[i]? = some tr) : i < s.traces.length := by
  rcases Nat.lt_or_ge i s.traces.length with h | h
  · exact h
  · rw [List.getElem?_eq_none h] at hi; cases hi

/-- What a trace shows after it was found by a search that wants stacks of at most `depth` frames (none if negative, all if 0). -/
theorem search_shown (s : St) (hs : Fits s) (i : Nat) (tr : Tr) (hi : s.traces[i]? = some tr) (depth : Int) :
    ∃ s', s.step (.search i depth) = some s' ∧
      s'.shown i = some (if tr.kind = .shares ∧ depth ≠ 0 then (tr.events.view s.mem).map (trimEvent depth.toNat) else tr.events.view s.mem) := by
  refine ⟨_, by simp only [St.step, hi]; rfl, ?_⟩
  unfold St.shown
  simp only
  rw [List.getElem?_append_left (index_lt hi), hi]
  simp only [Option.map_some, Option.some.injEq]
  have hlt := fits_lt hs hi
  by_cases hk : tr.kind = .shares
  · by_cases hd : depth = 0
    · rw [if_neg (by simp [hd])]
      simp [newSearchTrace, trimStacks, hd, Tr.getEvents, hk]
    · rw [if_pos ⟨hk, hd⟩]
      simp only [newSearchTrace, trimStacks, Tr.getEvents, hk, if_neg hd]
      rw [view_write_same]
      congr 2
      split <;> omega
  · rw [if_neg (by simp [hk])]
    rw [← getEvents_view tr s.mem hlt]
    unfold trimStacks
    split
    · rfl
    · simp only [newSearchTrace]
      rw [view_write_other]
      unfold Tr.getEvents
      cases hk' : tr.kind
      case shares => exact absurd hk' hk
      all_goals
        simp only [alloc]
        omega

theorem trim_fix (n : Nat) (l : List Event) : l.map (trimEvent n) = l ↔ ∀ e ∈ l, e.stack.length ≤ n := by
  constructor
  · intro h e he
    have h' : ∀ e ∈ l, trimEvent n e = e := by
      have : l.map (trimEvent n) = l.map id := by rw [h, List.map_id]
      exact fun e he => (List.map_inj_left.1 this) e he
    have := h' e he
    unfold trimEvent at this
    split at this
    · rename_i hgt
      have h2 := congrArg (fun e => e.stack.length) this
      simp only [List.length_take] at h2
      omega
    · omega
  · intro h
    have : l.map (trimEvent n) = l.map id := by
      apply List.map_inj_left.2
      intro e he
      have := h e he
      unfold trimEvent
      rw [if_neg (by omega)]
      rfl
    rw [this, List.map_id]

theorem clear_fix (l : List Event) : (l.map fun ev => { ev with stack := [] }) = l ↔ ∀ e ∈ l, e.stack = [] := by
  constructor
  · intro h e he
    have : l.map (fun ev : Event => { ev with stack := [] }) = l.map id := by rw [h, List.map_id]
    have := (List.map_inj_left.1 this) e he
    have h2 := congrArg (fun e => e.stack) this
    exact h2.symm
  · intro h
    have : l.map (fun ev : Event => { ev with stack := [] }) = l.map id := by
      apply List.map_inj_left.2
      intro e he
      have h1 := h e he
      cases e
      simp_all
    rw [this, List.map_id]

/-- C131, exactly when a search that finds a trace leaves it as it was: if its `Events` makes copies, if the search wants
all stacks, or if no stack is longer than what it wants. -/
theorem C131_search_exact (s : St) (hs : Fits s) (i : Nat) (tr : Tr) (hi : s.traces[i]? = some tr) (evs : List Event)
    (he : s.shown i = some evs) (depth : Int) :
    ∃ s', s.step (.search i depth) = some s' ∧
      (s'.shown i = some evs ↔ tr.kind ≠ .shares ∨ depth = 0 ∨ ∀ e ∈ evs, (e.stack.length : Int) ≤ max depth 0) := by
  obtain ⟨s', h1, h2⟩ := search_shown s hs i tr hi depth
  refine ⟨s', h1, ?_⟩
  rw [shown_of hi] at he
  obtain rfl := Option.some.inj he
  rw [h2, Option.some.injEq]
  by_cases hk : tr.kind = .shares
  · by_cases hd : depth = 0
    · simp [hd]
    · rw [if_pos ⟨hk, hd⟩, trim_fix]
      constructor
      · intro h
        refine .inr (.inr fun e he => ?_)
        have := h e he
        omega
      · rintro (h | h | h)
        · exact absurd hk h
        · exact absurd h hd
        · intro e he
          have := h e he
          omega
  · rw [if_neg (by simp [hk])]
    simp [hk]

theorem view_length {m : Mem} {s : Slice} {l : List Event} (h : m[s.arr]? = some l) (h' : s.off + s.len ≤ l.length) :
    (s.view m).length = s.len := by
  unfold Slice.view
  rw [h]
  simp only [Option.getD_some, List.length_take, List.length_drop]
  omega

/-- Clearing the last event. -/
theorem view_last (m : Mem) (s : Slice) (f : Event → Event) (hl : (s.view m).length = s.len) :
    s.view (write m ⟨s.arr, s.off + (s.len - 1), 1⟩ f) =
      (s.view m).take ((s.view m).length - 1) ++ ((s.view m).drop ((s.view m).length - 1)).map f := by
  apply List.ext_getElem?
  intro k
  rw [view_write]
  simp only [true_and]
  by_cases hk : k < s.len - 1
  · rw [List.getElem?_append_left (by simp only [List.length_take]; omega), List.getElem?_take, if_pos (by omega)]
    cases (s.view m)[k]? with
    | none => rfl
    | some e => simp only [Option.map_some]; rw [if_neg (by omega)]
  · rw [List.getElem?_append_right (by simp only [List.length_take]; omega), List.getElem?_map, List.getElem?_drop]
    have : (s.view m).length - 1 + (k - ((s.view m).take ((s.view m).length - 1)).length) = k := by
      simp only [List.length_take]; omega
    rw [this]
    by_cases hk' : k < s.len
    · cases (s.view m)[k]? with
      | none => rfl
      | some e => simp only [Option.map_some]; rw [if_pos (by omega)]
    · rw [List.getElem?_eq_none (by omega)]; rfl

/-- What a trace shows after it was published to a broker with subscribers. -/
theorem publish_shown (s : St) (hs : Fits s) (i : Nat) (tr : Tr) (hi : s.traces[i]? = some tr) (subs : Nat) (s' : St)
    (h : s.step (.publish i subs) = some s') :
    s'.shown i = some (if tr.kind = .shares ∧ subs ≠ 0 then
        (if tr.finished then (tr.events.view s.mem).map (fun ev => { ev with stack := [] })
         else (tr.events.view s.mem).take ((tr.events.view s.mem).length - 1) ++
          ((tr.events.view s.mem).drop ((tr.events.view s.mem).length - 1)).map (fun ev => { ev with stack := [] }))
      else tr.events.view s.mem) := by
  have hlt := fits_lt hs hi
  obtain ⟨l, hl, hle⟩ := hs tr (List.mem_of_getElem? hi)
  have hlen := view_length hl hle
  simp only [St.step, hi, Option.bind_eq_bind, Option.bind_some] at h
  by_cases hn : subs = 0
  · rw [if_pos hn] at h
    simp only [pure, Option.some.injEq] at h
    subst h
    rw [if_neg (by simp [hn])]
    exact shown_of hi
  · rw [if_neg hn] at h
    simp only [Option.bind_eq_some_iff] at h
    obtain ⟨⟨st, m⟩, hst, h⟩ := h
    simp only [pure, Option.some.injEq] at h
    subst h
    unfold St.shown
    simp only
    rw [List.getElem?_append_left (index_lt hi), hi]
    simp only [Option.map_some, Option.some.injEq]
    unfold newStreamTrace at hst
    cases hk : tr.kind <;> cases hf : tr.finished <;> simp [hk, hf, Tr.detail] at hst ⊢
    case detail.false | detail.true =>
      obtain ⟨-, rfl⟩ := hst
      exact view_alloc _ _ _ hlt
    case copies.false =>
      obtain ⟨-, -, rfl⟩ := hst
      rw [view_write_other, getEvents_view tr _ hlt]
      simp only [Tr.getEvents, hk, alloc]
      omega
    case copies.true =>
      obtain ⟨-, rfl⟩ := hst
      rw [view_write_other, getEvents_view tr _ hlt]
      simp only [Tr.getEvents, hk, alloc]
      omega
    case shares.false =>
      simp only [Tr.getEvents, hk] at hst
      obtain ⟨-, -, rfl⟩ := hst
      rw [if_neg hn, view_last _ _ _ hlen, List.map_drop]
    case shares.true =>
      obtain ⟨-, rfl⟩ := hst
      simp only [Tr.getEvents, hk]
      rw [if_neg hn, view_write_same]

/-- C131, exactly when publishing a trace leaves it as it was: if nobody subscribed, if its `Events` makes copies, or if there
were no stacks to remove (an active trace only loses that of its last event). -/
theorem C131_publish_exact (s : St) (hs : Fits s) (i : Nat) (tr : Tr) (hi : s.traces[i]? = some tr) (evs : List Event)
    (he : s.shown i = some evs) (subs : Nat) (s' : St) (h : s.step (.publish i subs) = some s') :
    s'.shown i = some evs ↔ subs = 0 ∨ tr.kind ≠ .shares ∨
      ∀ e ∈ (if tr.finished then evs else evs.drop (evs.length - 1)), e.stack = [] := by
  rw [publish_shown s hs i tr hi subs s' h]
  rw [shown_of hi] at he
  obtain rfl := Option.some.inj he
  rw [Option.some.injEq]
  by_cases hk : tr.kind = .shares
  · by_cases hn : subs = 0
    · simp [hn]
    · rw [if_pos ⟨hk, hn⟩]
      simp only [hn, hk, ne_eq, not_true_eq_false, false_or]
      by_cases hf : tr.finished = true
      · rw [if_pos hf, if_pos hf, clear_fix]
      · rw [if_neg hf, if_neg hf]
        rw [← clear_fix]
        conv_lhs => rhs; rw [← List.take_append_drop ((tr.events.view s.mem).length - 1) (tr.events.view s.mem)]
        exact List.append_right_inj _
  · rw [if_neg (by simp [hk])]
    simp [hk]

theorem cleared_stays {a b : List Event} (h : List.Forall₂ Cut (a.map fun ev => { ev with stack := [] }) b) :
    b = a.map fun ev => { ev with stack := [] } := by
  induction a generalizing b with
  | nil => cases h; rfl
  | cons x a ih =>
    cases h with
    | cons hd tl =>
      obtain ⟨n, rfl⟩ := hd
      rw [ih tl]
      simp

/-- C131 is false for every trace that gives its own slice away: one search that wants no stacks takes every stack from it, for good. -/
theorem C131_search_always_violated (s : St) (hs : Fits s) (i : Nat) (tr : Tr) (hi : s.traces[i]? = some tr) (hk : tr.kind = .shares)
    (evs : List Event) (he : s.shown i = some evs) (depth : Int) (hd : depth < 0) :
    ∃ s', s.step (.search i depth) = some s' ∧
      ∀ ls s'', s'.run ls = some s'' → s''.shown i = some (evs.map fun ev => { ev with stack := [] }) := by
  obtain ⟨s', h1, h2⟩ := search_shown s hs i tr hi depth
  refine ⟨s', h1, ?_⟩
  rw [shown_of hi] at he
  obtain rfl := Option.some.inj he
  have hd0 : depth ≠ 0 := by omega
  rw [if_pos ⟨hk, hd0⟩] at h2
  have h3 : s'.shown i = some ((tr.events.view s.mem).map fun ev => { ev with stack := [] }) := by
    rw [h2]
    congr 1
    apply List.map_inj_left.2
    intro e _
    have : depth.toNat = 0 := by omega
    rw [this]
    unfold trimEvent
    split
    · simp
    · rename_i h
      have : e.stack = [] := List.length_eq_zero_iff.1 (by omega)
      cases e
      simp_all
  intro ls s'' hr
  obtain ⟨l, hl, -⟩ := hs tr (List.mem_of_getElem? hi)
  obtain ⟨g1, n1, e1⟩ := step_grows h1
  obtain ⟨l', hl', -⟩ := g1 _ _ hl
  obtain ⟨g2, n2, e2⟩ := run_grows hr
  obtain ⟨l'', hl'', hc⟩ := g2 _ _ hl'
  have hi' : s'.traces[i]? = some tr := by rw [e1, List.getElem?_append_left (index_lt hi), hi]
  have hi'' : s''.traces[i]? = some tr := by rw [e2, List.getElem?_append_left (index_lt hi'), hi']
  rw [shown_of hi'] at h3
  rw [shown_of hi'']
  have hcut : List.Forall₂ Cut (tr.events.view s'.mem) (tr.events.view s''.mem) := by
    unfold Slice.view
    rw [hl', hl'']
    exact forall2_take (forall2_drop hc _) _
  rw [Option.some.inj h3] at hcut
  rw [Option.some.injEq]
  exact cleared_stays hcut

/-- C131: what a search found in such a trace is not a copy. Whatever happens later, the trace in the answer and the trace itself
show the same events. So one search takes the stacks from the answers of earlier searches, too, and a program that trims the stacks
of what it found trims those of the trace. -/
theorem C131_answers_shared (s : St) (i : Nat) (tr : Tr) (hi : s.traces[i]? = some tr) (hk : tr.kind = .shares)
    (depth : Int) (s' : St) (h : s.step (.search i depth) = some s') (ls : List Look) (s'' : St) (hr : s'.run ls = some s'') :
    s''.shown s.traces.length = s''.shown i ∧ (s''.shown i).isSome := by
  simp only [St.step, hi, Option.bind_eq_bind, Option.bind_some, pure, Option.some.injEq] at h
  obtain ⟨-, n2, e2⟩ := run_grows hr
  subst h
  simp only at e2
  have hi'' : s''.traces[i]? = some tr := by
    rw [e2, List.append_assoc, List.getElem?_append_left (index_lt hi), hi]
  have hn'' : s''.traces[s.traces.length]? = some { tr with kind := .shares } := by
    rw [e2, List.append_assoc, List.getElem?_append_right (Nat.le_refl _)]
    simp [newSearchTrace, Tr.getEvents, hk]
  rw [shown_of hi'', shown_of hn'']
  exact ⟨rfl, rfl⟩

/-! ## Examples -/

namespace Witness

def frame : Frame := ⟨"main.work", "/src/main.go:7"⟩

def event : Event := ⟨⟨1, none⟩, "hello", [frame], false⟩

/-- A program keeps a finished static trace with one event that has a stack, and one trace that makes copies. -/
def prog : St := ⟨[{ kind := .shares, finished := true, events := ⟨0, 0, 1⟩ }, { kind := .copies, finished := true, events := ⟨1, 0, 1⟩ }],
  [[event], [event]]⟩

theorem fits : Fits prog := by
  intro tr h
  simp only [prog, List.mem_cons, List.not_mem_nil, or_false] at h
  rcases h with rfl | rfl
  · exact ⟨[event], rfl, Nat.le_refl 1⟩
  · exact ⟨[event], rfl, Nat.le_refl 1⟩

/-- What a filter sees of a trace. -/
def reading (evs : List Event) : Static :=
  { source := "", id := "", category := "", started := ⟨0, none⟩, duration := 0, finished := true, errored := false, events := evs }

/-- A query that finds the function. -/
def query : Filter := { query := "main.work" }

/-- Queries are looked for literally. -/
def literal : Compile := fun q => .ok fun s => s == q

/-- C131 is false: the same query finds a trace before, and not after, someone subscribed and it was published. -/
theorem C131_query_violated : ∃ s', prog.step (.publish 0 1) = some s' ∧
    ((prog.shown 0).map fun evs => (query.allow literal (reading evs)).1) = some true ∧
    ((s'.shown 0).map fun evs => (query.allow literal (reading evs)).1) = some false :=
  ⟨_, rfl, by decide, by decide⟩

/-- The other trace in the same program keeps its stack. -/
example : ∃ s', prog.run [.publish 1 1, .search 1 (-1), .publish 0 1, .search 0 (-1)] = some s' ∧ s'.shown 1 = prog.shown 1 ∧
    s'.shown 0 = some [{ event with stack := [] }] := ⟨_, rfl, by decide, by decide⟩

end Witness

end Trc.Own
