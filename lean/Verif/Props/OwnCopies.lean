import Verif.Props.Own

/-!
# C131: what is found and streamed of traces of other types
-/

namespace Trc.Own

open Core (Event Frame)

theorem trim_take (n : Nat) (e : Event) : trimEvent n e = { e with stack := e.stack.take n } := by
  unfold trimEvent
  split
  · rfl
  · rw [List.take_of_length_le (by omega)]

theorem getEvents_shows (tr : Tr) (m : Mem) : (tr.getEvents m).1.view (tr.getEvents m).2 = tr.events.view m := by
  unfold Tr.getEvents
  cases tr.kind
  · exact view_alloc_new _ _
  · exact view_alloc_new _ _
  · rfl

/-- C131: whatever the type of a trace, what a search finds of it are its events as they were, each with its stack up to the depth
that is asked for (all of it for 0, none for a negative depth), and everything else about it. -/
theorem C131_found (s : St) (i : Nat) (tr : Tr) (hi : s.traces[i]? = some tr) (evs : List Event)
    (he : s.shown i = some evs) (depth : Int) (s' : St) (h : s.step (.search i depth) = some s') :
    (∃ sl, s'.traces = s.traces ++ [{ tr with kind := .shares, events := sl }]) ∧
    s'.shown s.traces.length =
      some (evs.map fun ev => { ev with stack := if depth = 0 then ev.stack else ev.stack.take depth.toNat }) := by
  rw [shown_of hi] at he
  obtain rfl := Option.some.inj he
  simp only [St.step, hi, Option.bind_eq_bind, Option.bind_some, pure, Option.some.injEq] at h
  subst h
  refine ⟨⟨_, rfl⟩, ?_⟩
  unfold St.shown
  simp only [List.getElem?_append_right (Nat.le_refl _), Nat.sub_self, List.getElem?_cons_zero, Option.map_some, Option.some.injEq]
  unfold trimStacks
  by_cases hd : depth = 0
  · rw [if_pos hd]
    simp only [hd, if_true, newSearchTrace]
    rw [getEvents_shows]
    simp
  · rw [if_neg hd, view_write_same]
    simp only [hd, if_false, newSearchTrace]
    rw [getEvents_shows]
    refine List.map_congr_left fun e _ => ?_
    rw [trim_take]
    have : (if depth < 0 then 0 else depth).toNat = depth.toNat := by split <;> omega
    rw [this]

/-- C131: whatever the type of a trace, subscribers get its last event if it is active and all of its events if it is finished, without
stacks, and everything else about it. -/
theorem C131_streamed (s : St) (hs : Fits s) (i : Nat) (tr : Tr) (hi : s.traces[i]? = some tr) (evs : List Event)
    (he : s.shown i = some evs) (subs : Nat) (hsubs : subs ≠ 0) (s' : St) (h : s.step (.publish i subs) = some s') :
    (∃ sl, s'.traces = s.traces ++ [{ tr with kind := .shares, events := sl }]) ∧
    s'.shown s.traces.length =
      some ((if tr.finished then evs else evs.drop (evs.length - 1)).map fun ev => { ev with stack := [] }) := by
  have hlt := fits_lt hs hi
  obtain ⟨l, hl, hle⟩ := hs tr (List.mem_of_getElem? hi)
  have hlen := view_length hl hle
  rw [shown_of hi] at he
  obtain rfl := Option.some.inj he
  simp only [St.step, hi, Option.bind_eq_bind, Option.bind_some] at h
  rw [if_neg hsubs] at h
  simp only [Option.bind_eq_some_iff] at h
  obtain ⟨⟨st, m⟩, hst, h⟩ := h
  simp only [pure, Option.some.injEq] at h
  subst h
  have last : ∀ (m : Mem) (sl : Slice), (sl.view m).length = sl.len → sl.len ≠ 0 →
      (⟨sl.arr, sl.off + (sl.len - 1), 1⟩ : Slice).view m = (sl.view m).drop ((sl.view m).length - 1) := by
    intro m sl h0 h1
    apply List.ext_getElem?
    intro k
    rw [List.getElem?_drop, view_getElem?, view_getElem?, h0]
    simp only
    by_cases hk : k < 1
    · rw [if_pos hk, if_pos (by omega), Nat.add_assoc]
    · rw [if_neg hk, if_neg (by omega)]
  have hview : (tr.getEvents s.mem).1.view (tr.getEvents s.mem).2 = tr.events.view s.mem := getEvents_shows tr s.mem
  have hglen : (tr.getEvents s.mem).1.len = tr.events.len := by
    unfold Tr.getEvents
    cases tr.kind
    · simp only [alloc]; exact hlen
    · simp only [alloc]; exact hlen
    · rfl
  have hres : (∃ sl, st = { tr with kind := .shares, events := sl }) ∧ st.events.view m =
      (if tr.finished then tr.events.view s.mem else (tr.events.view s.mem).drop ((tr.events.view s.mem).length - 1)).map fun ev => { ev with stack := [] } := by
    unfold newStreamTrace at hst
    cases hk : tr.kind <;> cases hf : tr.finished
    case detail.false =>
      simp only [hk, hf, Bool.not_false, Option.bind_eq_bind, Option.bind_some, pure, Option.some.injEq, Prod.mk.injEq] at hst
      obtain ⟨rfl, rfl⟩ := hst
      refine ⟨⟨_, rfl⟩, ?_⟩
      simp only [Tr.detail, view_alloc_new, hf]
      simp
    case detail.true =>
      simp only [hk, hf, Bool.not_true, Option.bind_eq_bind, Option.bind_some, pure, Option.some.injEq, Prod.mk.injEq] at hst
      obtain ⟨rfl, rfl⟩ := hst
      refine ⟨⟨_, rfl⟩, ?_⟩
      simp only [Tr.detail, view_alloc_new, hf]
      simp
    case copies.true | shares.true =>
      simp only [hk, hf, Bool.not_true, Option.bind_eq_bind, Option.bind_some, pure, Option.some.injEq, Prod.mk.injEq] at hst
      obtain ⟨rfl, rfl⟩ := hst
      refine ⟨⟨_, rfl⟩, ?_⟩
      simp only [view_write_same, hview]
      simp
    case copies.false | shares.false =>
      simp only [hk, hf, Bool.not_false, Option.bind_eq_bind, pure] at hst
      split at hst
      · cases hst
      · rename_i h0
        simp only [Option.bind_some, Option.some.injEq, Prod.mk.injEq] at hst
        obtain ⟨rfl, rfl⟩ := hst
        refine ⟨⟨_, rfl⟩, ?_⟩
        simp only [view_write_same]
        rw [last _ _ (by rw [hview, hlen, hglen]) h0, hview]
        simp
  obtain ⟨⟨sl, rfl⟩, hv⟩ := hres
  refine ⟨⟨sl, rfl⟩, ?_⟩
  unfold St.shown
  simp only [List.getElem?_append_right (Nat.le_refl _), Nat.sub_self, List.getElem?_cons_zero, Option.map_some, Option.some.injEq]
  exact hv

/-- C131: publishing panics exactly if somebody subscribed and the trace is active, has no events, and is of a type without `EventsDetail`. -/
theorem C131_panics (s : St) (hs : Fits s) (i : Nat) (tr : Tr) (hi : s.traces[i]? = some tr) (evs : List Event)
    (he : s.shown i = some evs) (subs : Nat) :
    s.step (.publish i subs) = none ↔ subs ≠ 0 ∧ tr.kind ≠ .detail ∧ tr.finished = false ∧ evs = [] := by
  obtain ⟨l, hl, hle⟩ := hs tr (List.mem_of_getElem? hi)
  have hlen := view_length hl hle
  rw [shown_of hi] at he
  obtain rfl := Option.some.inj he
  have hnil : tr.events.view s.mem = [] ↔ tr.events.len = 0 := by rw [← hlen, List.length_eq_zero_iff]
  have hglen : (tr.getEvents s.mem).1.len = tr.events.len := by
    unfold Tr.getEvents
    cases tr.kind
    · simp only [alloc]; exact hlen
    · simp only [alloc]; exact hlen
    · rfl
  simp only [St.step, hi, Option.bind_eq_bind, Option.bind_some]
  by_cases hn : subs = 0
  · simp [hn]
  · rw [if_neg hn, hnil]
    unfold newStreamTrace
    cases hk : tr.kind <;> cases hf : tr.finished <;> simp [hn, hglen, pure]

/-- A static trace with two events, searched and published. -/
example :
    let ev : Event := ⟨⟨1, none⟩, "a", [⟨"f", "x:1"⟩, ⟨"g", "x:2"⟩], false⟩
    let s : St := ⟨[{ kind := .shares, events := ⟨0, 0, 2⟩ }], [[ev, { ev with what := "b" }]]⟩
    Fits s ∧ s.shown 0 = some [ev, { ev with what := "b" }] ∧
    ((s.step (.search 0 1)).bind fun s' => s'.shown 1) =
      some [{ ev with stack := [⟨"f", "x:1"⟩] }, { ev with what := "b", stack := [⟨"f", "x:1"⟩] }] ∧
    ((s.step (.publish 0 1)).bind fun s' => s'.shown 1) = some [{ ev with what := "b", stack := [] }] := by
  refine ⟨?_, rfl, rfl, rfl⟩
  intro tr htr
  simp only [List.mem_singleton] at htr
  subst htr
  exact ⟨_, rfl, by decide⟩

end Trc.Own
