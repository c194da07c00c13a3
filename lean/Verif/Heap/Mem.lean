import Verif.Heap.Model

/-! # Memory invariants: pooled objects are not shared -/

set_option linter.unusedSectionVars false
set_option linter.unusedVariables false
set_option linter.unusedSimpArgs false

namespace Trc.Heap

open Trc.Core

variable {W A : Type} [Sys W A]

theorem upd_same {β : Type} (f : Nat → β) (a : Nat) (b : β) : upd f a b a = b := by simp [upd]
theorem upd_ne {β : Type} (f : Nat → β) {a x : Nat} (b : β) (h : x ≠ a) : upd f a b x = f x := by simp [upd, h]
theorem upd_upd {β : Type} (f : Nat → β) (a : Nat) (b c : β) : upd (upd f a b) a c = upd f a c := by
  funext x; simp only [upd]; split <;> rfl
theorem upd_self {β : Type} (f : Nat → β) (a : Nat) : upd f a (f a) = f := by
  funext x; simp only [upd]; split
  · rename_i h; rw [h]
  · rfl

/-- `e` belongs to a trace. -/
def Owned (h : Heap A) (e : Nat) : Prop := ∃ a, e ∈ (h.traces a).events

/-- The backing arrays: every event object has its own, or none. -/
structure ArrOK (h : Heap A) : Prop where
  inj : ∀ e e', e < h.nextE → e' < h.nextE → (h.events e).stack.arr = (h.events e').stack.arr →
    e = e' ∨ (h.events e).stack.arr = 0
  lt : ∀ e, e < h.nextE → (h.events e).stack.arr < h.nextA
  pos : 0 < h.nextA
  zero : h.arrays 0 = []
  len : ∀ e, e < h.nextE → (h.events e).stack.len ≤ (h.arrays (h.events e).stack.arr).length

/-- The memory invariant. -/
structure Mem (h : Heap A) : Prop where
  evNodup : ∀ a, (h.traces a).events.Nodup
  evOwn : ∀ a b e, e ∈ (h.traces a).events → e ∈ (h.traces b).events → a = b
  evPool : ∀ e, Owned h e → e ∉ h.eventPool
  evLt : ∀ e, Owned h e → e < h.nextE
  epNodup : h.eventPool.Nodup
  epLt : ∀ e ∈ h.eventPool, e < h.nextE
  str : ∀ e, Owned h e → ∃ s, (h.events e).what = some s ∧ s < h.nextS ∧ s ∉ h.strPool
  strInj : ∀ e e' s, Owned h e → Owned h e' → (h.events e).what = some s → (h.events e').what = some s → e = e'
  spNodup : h.strPool.Nodup
  spLt : ∀ s ∈ h.strPool, s < h.nextS
  arr : ArrOK h

/-- The value of the event at address `e`. -/
def absEvent (h : Heap A) (e : Nat) : CoreEvent A :=
  { when_ := (h.events e).when_
    what := match (h.events e).what with
      | some s => h.strs s
      | none => { fmt := "", args := [], str := zeroNullString }
    pcs := (h.events e).pcs
    stack := (h.arrays (h.events e).stack.arr).take (h.events e).stack.len
    iserr := (h.events e).iserr }

/-- The value of the trace at address `a`. -/
def absTrace (h : Heap A) (a : Nat) : CoreTrace A :=
  let tr := h.traces a
  { source := tr.source, id := tr.id, category := tr.category, start := tr.start, errored := tr.errored
    finished := tr.finished, duration := tr.duration, nostackflag := tr.nostackflag
    events := tr.events.map (absEvent h), eventsmax := tr.eventsmax, truncated := tr.truncated }

theorem mem_init : Mem (Heap.init : Heap A) := by
  constructor
  · intro a; simp [Heap.init]
  · intro a b e h; simp [Heap.init] at h
  · rintro e ⟨a, h⟩; simp [Heap.init] at h
  · rintro e ⟨a, h⟩; simp [Heap.init] at h
  · simp [Heap.init]
  · intro e h; simp [Heap.init] at h
  · rintro e ⟨a, h⟩; simp [Heap.init] at h
  · rintro e e' s ⟨a, h⟩; simp [Heap.init] at h
  · simp [Heap.init]
  · intro e h; simp [Heap.init] at h
  · constructor
    · intro e e' h; simp [Heap.init] at h
    · intro e h; simp [Heap.init] at h
    · simp [Heap.init]
    · simp [Heap.init]
    · intro e h; simp [Heap.init] at h

theorem choose_mem {pool : List Nat} {c : Option Nat} {x : Nat} (h : choose pool c = some x) : x ∈ pool := by
  cases c with
  | none => simp [choose] at h
  | some i => exact List.mem_of_getElem? h

/-! ## New events -/

/-- What taking an object from a pool does to pool and frontier. -/
def Taken (pool : List Nat) (next : Nat) (x : Nat) (pool' : List Nat) (next' : Nat) : Prop :=
  (x ∈ pool ∧ pool' = pool.erase x ∧ next' = next) ∨ (x = next ∧ pool' = pool ∧ next' = next + 1)

theorem Taken.facts {pool : List Nat} {next x : Nat} {pool' : List Nat} {next' : Nat}
    (h : Taken pool next x pool' next') (hn : pool.Nodup) (hl : ∀ y ∈ pool, y < next) :
    pool'.Nodup ∧ (∀ y ∈ pool', y < next') ∧ x ∉ pool' ∧ x < next' ∧ next ≤ next' ∧ (∀ y ∈ pool', y ∈ pool) := by
  rcases h with ⟨h1, rfl, rfl⟩ | ⟨rfl, rfl, rfl⟩
  · refine ⟨hn.erase x, fun y hy => hl y (List.mem_of_mem_erase hy), ?_, hl x h1, Nat.le_refl _,
      fun y hy => List.mem_of_mem_erase hy⟩
    intro hx
    exact (List.Nodup.mem_erase_iff hn).mp hx |>.1 rfl
  · refine ⟨hn, fun y hy => Nat.lt_succ_of_lt (hl y hy), fun hx => Nat.lt_irrefl _ (hl _ hx), Nat.lt_succ_self _,
      Nat.le_succ _, fun y hy => hy⟩

structure NewEvent (h : Heap A) (env : Env W) (flags : UInt8) (format : String) (args : List A)
    (callers : List StdFrame) (h' : Heap A) (e s : Nat) : Prop where
  traces : h'.traces = h.traces
  arrays : h'.arrays = h.arrays
  nextA : h'.nextA = h.nextA
  nextT : h'.nextT = h.nextT
  tracePool : h'.tracePool = h.tracePool
  ev : Taken h.eventPool h.nextE e h'.eventPool h'.nextE
  st : Taken h.strPool h.nextS s h'.strPool h'.nextS
  strs : h'.strs = upd h.strs s (if flags &&& flagLazy ≠ 0 then newLazyStringer format args
    else newNormalStringer env.w format args)
  evNe : ∀ x, x ≠ e → h'.events x = h.events x
  evEq : (h'.events e).when_ = env.now ∧ (h'.events e).what = some s ∧
    (h'.events e).pcs = (if flags &&& flagNoStack ≠ 0 then [] else callers) ∧
    (h'.events e).stack.len = 0 ∧ (h'.events e).iserr = decide (flags &&& flagError ≠ 0)
  evArr : (e < h.nextE ∧ (h'.events e).stack.arr = (h.events e).stack.arr) ∨ (h'.events e).stack.arr = 0
  counters : h'.n.traceNew = h.n.traceNew ∧ h'.n.traceFree = h.n.traceFree ∧ h'.n.traceLost = h.n.traceLost ∧
    h'.n.traceAlloc = h.n.traceAlloc ∧ h'.n.eventNew = h.n.eventNew + 1 ∧ h'.n.eventFree = h.n.eventFree ∧
    h'.n.strNew = h.n.strNew + 1 ∧ h'.n.strFree = h.n.strFree

theorem newCoreEvent_spec (h : Heap A) (hm : Mem h) (ch : Choice) (env : Env W) (flags : UInt8)
    (format : String) (args : List A) (callers : List StdFrame) :
    ∃ s, NewEvent h env flags format args callers (h.newCoreEvent ch env flags format args callers).1
      (h.newCoreEvent ch env flags format args callers).2 s := by
  unfold Heap.newCoreEvent Heap.getEvent Heap.newStringer Heap.getStr
  simp only
  cases he : choose h.eventPool ch.event with
  | some e =>
    have hem := choose_mem he
    simp only
    cases hs : choose h.strPool ch.str with
    | some s =>
      have hsm := choose_mem hs
      refine ⟨s, rfl, rfl, rfl, rfl, rfl, .inl ⟨hem, rfl, rfl⟩, .inl ⟨hsm, rfl, rfl⟩, rfl, ?_, ?_, ?_, ?_⟩
      · intro x hx; simp [upd, hx]
      · simp [upd]
      · left; exact ⟨hm.epLt e hem, by simp [upd]⟩
      · simp
    | none =>
      refine ⟨h.nextS, rfl, rfl, rfl, rfl, rfl, .inl ⟨hem, rfl, rfl⟩, .inr ⟨rfl, rfl, rfl⟩, ?_, ?_, ?_, ?_, ?_⟩
      · exact upd_upd _ _ _ _
      · intro x hx; simp [upd, hx]
      · simp [upd]
      · left; exact ⟨hm.epLt e hem, by simp [upd]⟩
      · simp
  | none =>
    simp only
    cases hs : choose h.strPool ch.str with
    | some s =>
      have hsm := choose_mem hs
      refine ⟨s, rfl, rfl, rfl, rfl, rfl, .inr ⟨rfl, rfl, rfl⟩, .inl ⟨hsm, rfl, rfl⟩, rfl, ?_, ?_, ?_, ?_⟩
      · intro x hx; simp [upd, hx]
      · simp [upd]
      · right; simp [upd, zeroEvent]
      · simp
    | none =>
      refine ⟨h.nextS, rfl, rfl, rfl, rfl, rfl, .inr ⟨rfl, rfl, rfl⟩, .inr ⟨rfl, rfl, rfl⟩, ?_, ?_, ?_, ?_, ?_⟩
      · exact upd_upd _ _ _ _
      · intro x hx; simp [upd, hx]
      · simp [upd]
      · right; simp [upd, zeroEvent]
      · simp

theorem NewEvent.notOwned {h : Heap A} {env : Env W} {flags format args callers h' e s}
    (n : NewEvent h env flags format args callers h' e s) (hm : Mem h) : ¬ Owned h e := by
  intro ho
  rcases n.ev with ⟨h1, _, _⟩ | ⟨h1, _, _⟩
  · exact hm.evPool e ho h1
  · have := hm.evLt e ho; omega

theorem NewEvent.strNotOwned {h : Heap A} {env : Env W} {flags format args callers h' e s}
    (n : NewEvent h env flags format args callers h' e s) (hm : Mem h) (x : Nat) (ho : Owned h x) :
    (h.events x).what ≠ some s := by
  intro hw
  obtain ⟨s', hs', hlt, hp⟩ := hm.str x ho
  rw [hw] at hs'
  obtain rfl := Option.some.inj hs'
  rcases n.st with ⟨h1, _, _⟩ | ⟨h1, _, _⟩
  · exact hp h1
  · omega

/-- The value of the new event, and of all events of traces. -/
theorem NewEvent.abs {h : Heap A} {env : Env W} {flags format args callers h' e s}
    (n : NewEvent h env flags format args callers h' e s) (hm : Mem h) :
    absEvent h' e = Core.newCoreEvent env flags format args callers ∧
    ∀ x, Owned h x → absEvent h' x = absEvent h x := by
  constructor
  · obtain ⟨h1, h2, h3, h4, h5⟩ := n.evEq
    unfold absEvent Core.newCoreEvent
    rw [h1, h2, h3, h4, h5, n.strs]
    simp [upd]
  · intro x hx
    have hne : x ≠ e := fun he => n.notOwned hm (he ▸ hx)
    unfold absEvent
    rw [n.evNe x hne, n.arrays, n.strs]
    obtain ⟨s', hs', _, _⟩ := hm.str x hx
    have : s' ≠ s := fun he => n.strNotOwned hm x hx (he ▸ hs')
    rw [hs']
    simp [upd, this]

/-- Appending the new event to the events of a trace keeps the memory invariant. -/
theorem NewEvent.mem {h : Heap A} {env : Env W} {flags format args callers h' e s}
    (n : NewEvent h env flags format args callers h' e s) (hm : Mem h) (a : Nat) (tr : HTrace)
    (htr : tr.events = (h.traces a).events ++ [e]) :
    Mem { h' with traces := upd h'.traces a tr } := by
  have hno := n.notOwned hm
  obtain ⟨e1, e2, e3, e4, e5, e6⟩ := n.ev.facts hm.epNodup hm.epLt
  obtain ⟨s1, s2, s3, s4, s5, s6⟩ := n.st.facts hm.spNodup hm.spLt
  -- ownership after
  have hev : ∀ x, ((upd h'.traces a tr) x).events =
      if x = a then (h.traces a).events ++ [e] else (h.traces x).events := by
    intro x
    simp only [upd, n.traces]
    split
    · exact htr
    · rfl
  have hown : ∀ x, Owned { h' with traces := upd h'.traces a tr } x → x = e ∨ Owned h x := by
    rintro x ⟨b, hb⟩
    simp only [hev] at hb
    split at hb
    · simp only [List.mem_append, List.mem_singleton] at hb
      rcases hb with hb | hb
      · exact .inr ⟨a, hb⟩
      · exact .inl hb
    · exact .inr ⟨b, hb⟩
  constructor
  · intro b
    simp only [hev]
    split
    · rw [List.nodup_append]
      refine ⟨hm.evNodup a, by simp, ?_⟩
      intro x hx y hy
      simp only [List.mem_singleton] at hy
      subst hy
      intro he; subst he
      exact hno ⟨a, hx⟩
    · exact hm.evNodup b
  · intro b c x hb hc
    simp only [hev] at hb hc
    by_cases hbe : x = e
    · subst hbe
      split at hb
      · split at hc
        · simp_all
        · exact absurd ⟨c, hc⟩ hno
      · exact absurd ⟨b, hb⟩ hno
    · have hb' : x ∈ (h.traces b).events := by
        split at hb
        · rename_i hba; subst hba
          simp only [List.mem_append, List.mem_singleton] at hb
          exact hb.resolve_right hbe
        · exact hb
      have hc' : x ∈ (h.traces c).events := by
        split at hc
        · rename_i hca; subst hca
          simp only [List.mem_append, List.mem_singleton] at hc
          exact hc.resolve_right hbe
        · exact hc
      exact hm.evOwn b c x hb' hc'
  · intro x hx hp
    rcases hown x hx with rfl | ho
    · exact e3 hp
    · exact hm.evPool x ho (e6 x hp)
  · intro x hx
    rcases hown x hx with rfl | ho
    · exact e4
    · exact Nat.lt_of_lt_of_le (hm.evLt x ho) e5
  · exact e1
  · exact e2
  · intro x hx
    rcases hown x hx with rfl | ho
    · exact ⟨s, n.evEq.2.1, s4, s3⟩
    · have hne : x ≠ e := fun he => hno (he ▸ ho)
      obtain ⟨s', hs', hlt, hp⟩ := hm.str x ho
      refine ⟨s', by rw [← hs']; exact congrArg HEvent.what (n.evNe x hne), Nat.lt_of_lt_of_le hlt s5,
        fun hp' => hp (s6 s' hp')⟩
  · intro x y s' hx hy hwx hwy
    simp only at hwx hwy
    rcases hown x hx with rfl | hox
    · rcases hown y hy with rfl | hoy
      · rfl
      · have hne : y ≠ x := fun he => hno (he ▸ hoy)
        rw [n.evEq.2.1] at hwx
        rw [n.evNe y hne] at hwy
        obtain rfl := Option.some.inj hwx
        exact absurd hwy (n.strNotOwned hm y hoy)
    · have hnex : x ≠ e := fun he => hno (he ▸ hox)
      rcases hown y hy with rfl | hoy
      · rw [n.evEq.2.1] at hwy
        rw [n.evNe x hnex] at hwx
        obtain rfl := Option.some.inj hwy
        exact absurd hwx (n.strNotOwned hm x hox)
      · have hney : y ≠ e := fun he => hno (he ▸ hoy)
        rw [n.evNe x hnex] at hwx
        rw [n.evNe y hney] at hwy
        exact hm.strInj x y s' hox hoy hwx hwy
  · exact s1
  · exact s2
  · have key : ∀ x, x < h'.nextE → x ≠ e → x < h.nextE := by
      intro x hx hne
      rcases n.ev with ⟨_, _, h3⟩ | ⟨h1, _, h3⟩ <;> omega
    constructor
    · intro x y hx hy hxy
      simp only at hx hy hxy ⊢
      by_cases hxe : x = e
      · subst hxe
        rcases n.evArr with ⟨hlt, harr⟩ | harr
        · by_cases hye : y = x
          · exact .inl hye.symm
          · rw [harr, n.evNe y hye] at hxy
            rw [harr]
            exact hm.arr.inj x y hlt (key y hy hye) hxy
        · exact .inr harr
      · rw [n.evNe x hxe] at hxy ⊢
        by_cases hye : y = e
        · subst hye
          rcases n.evArr with ⟨hlt, harr⟩ | harr
          · rw [harr] at hxy
            exact hm.arr.inj x y (key x hx hxe) hlt hxy
          · right; rw [hxy]; exact harr
        · rw [n.evNe y hye] at hxy
          exact hm.arr.inj x y (key x hx hxe) (key y hy hye) hxy
    · intro x hx
      simp only at hx ⊢
      rw [n.nextA]
      by_cases hxe : x = e
      · subst hxe
        rcases n.evArr with ⟨hlt, harr⟩ | harr
        · rw [harr]; exact hm.arr.lt x hlt
        · rw [harr]; exact hm.arr.pos
      · rw [n.evNe x hxe]; exact hm.arr.lt x (key x hx hxe)
    · rw [n.nextA]; exact hm.arr.pos
    · rw [n.arrays]; exact hm.arr.zero
    · intro x hx
      simp only at hx ⊢
      rw [n.arrays]
      by_cases hxe : x = e
      · subst hxe; rw [n.evEq.2.2.2.1]; exact Nat.zero_le _
      · rw [n.evNe x hxe]; exact hm.arr.len x (key x hx hxe)

/-! ## Stacks -/

/-- Everything but the stacks is the same. -/
structure SameButStacks (h h' : Heap A) : Prop where
  traces : h'.traces = h.traces
  strs : h'.strs = h.strs
  nextT : h'.nextT = h.nextT
  nextE : h'.nextE = h.nextE
  nextS : h'.nextS = h.nextS
  tracePool : h'.tracePool = h.tracePool
  eventPool : h'.eventPool = h.eventPool
  strPool : h'.strPool = h.strPool
  n : h'.n = h.n

/-- `h'` is `h` after appending the frames `fs` to the stack of event `e`. -/
structure StackStep (h h' : Heap A) (e : Nat) (fs : List Frame) : Prop where
  same : SameButStacks h h'
  evs : ∀ x, x ≠ e → h'.events x = h.events x
  ev : (h'.events e).when_ = (h.events e).when_ ∧ (h'.events e).what = (h.events e).what ∧
    (h'.events e).pcs = (h.events e).pcs ∧ (h'.events e).iserr = (h.events e).iserr
  stk : (h'.arrays (h'.events e).stack.arr).take (h'.events e).stack.len =
    (h.arrays (h.events e).stack.arr).take (h.events e).stack.len ++ fs
  len : (h'.events e).stack.len = (h.events e).stack.len + fs.length
  mono : h.nextA ≤ h'.nextA
  arrCase : (h'.events e).stack.arr = (h.events e).stack.arr ∨ h.nextA ≤ (h'.events e).stack.arr
  other : ∀ x l, x < h.nextA → (x ≠ (h.events e).stack.arr ∨ l ≤ (h.events e).stack.len) →
    (h'.arrays x).take l = (h.arrays x).take l
  /-- arrays of other events keep their whole contents -/
  whole : ∀ x, x < h.nextA → x ≠ (h.events e).stack.arr → h'.arrays x = h.arrays x
  ok : ArrOK h'

theorem StackStep.refl {h : Heap A} (hok : ArrOK h) (e : Nat) : StackStep h h e [] where
  same := ⟨rfl, rfl, rfl, rfl, rfl, rfl, rfl, rfl, rfl⟩
  evs := fun _ _ => rfl
  ev := ⟨rfl, rfl, rfl, rfl⟩
  stk := by simp
  len := by simp
  mono := Nat.le_refl _
  arrCase := .inl rfl
  other := fun _ _ _ _ => rfl
  whole := fun _ _ _ => rfl
  ok := hok

theorem StackStep.trans {h h' h'' : Heap A} {e : Nat} {fs fs' : List Frame}
    (h1 : StackStep h h' e fs) (h2 : StackStep h' h'' e fs') : StackStep h h'' e (fs ++ fs') where
  same := ⟨h2.same.traces.trans h1.same.traces, h2.same.strs.trans h1.same.strs,
    h2.same.nextT.trans h1.same.nextT, h2.same.nextE.trans h1.same.nextE, h2.same.nextS.trans h1.same.nextS,
    h2.same.tracePool.trans h1.same.tracePool, h2.same.eventPool.trans h1.same.eventPool,
    h2.same.strPool.trans h1.same.strPool, h2.same.n.trans h1.same.n⟩
  evs := fun x hx => (h2.evs x hx).trans (h1.evs x hx)
  ev := ⟨h2.ev.1.trans h1.ev.1, h2.ev.2.1.trans h1.ev.2.1, h2.ev.2.2.1.trans h1.ev.2.2.1,
    h2.ev.2.2.2.trans h1.ev.2.2.2⟩
  stk := by rw [h2.stk, h1.stk, List.append_assoc]
  len := by rw [h2.len, h1.len, List.length_append]; omega
  mono := Nat.le_trans h1.mono h2.mono
  arrCase := by
    have m := h1.mono
    rcases h2.arrCase with h | h
    · rw [h]; exact h1.arrCase
    · right; omega
  other := by
    intro x l hx hc
    have m := h1.mono
    rw [h2.other x l (by omega), h1.other x l hx hc]
    rcases hc with hc | hc
    · left
      rcases h1.arrCase with h | h
      · rw [h]; exact hc
      · omega
    · right; rw [h1.len]; omega
  whole := by
    intro x hx hc
    have m := h1.mono
    rw [h2.whole x (by omega), h1.whole x hx hc]
    rcases h1.arrCase with h | h
    · rw [h]; exact hc
    · omega
  ok := h2.ok

theorem appendStack_spec {h : Heap A} (hok : ArrOK h) {e : Nat} (he : e < h.nextE) (fr : Frame)
    (grow : Nat → Nat) : StackStep h (h.appendStack e fr grow) e [fr] := by
  unfold Heap.appendStack
  simp only
  have hlt := hok.lt e he
  have hlen := hok.len e he
  by_cases hc : (h.events e).stack.len < (h.arrays (h.events e).stack.arr).length
  · rw [if_pos hc]
    have hnz : (h.events e).stack.arr ≠ 0 := by
      intro h0; rw [h0, hok.zero] at hc; simp at hc
    refine ⟨⟨rfl, rfl, rfl, rfl, rfl, rfl, rfl, rfl, rfl⟩, ?_, ?_, ?_, ?_, Nat.le_refl _, ?_, ?_, ?_, ?_⟩
    · intro x hx; simp [upd, hx]
    · simp [upd]
    · simp only [upd_same]
      rw [List.take_add_one, List.take_set_of_le (Nat.le_refl _)]
      simp [hc]
    · simp [upd_same]
    · simp [upd_same]
    · intro x l hx hcase
      simp only [upd]
      split
      · rename_i hxe
        rcases hcase with h | h
        · exact absurd hxe h
        · rw [List.take_set_of_le h, hxe]
      · rfl
    · intro x hx hne; simp [upd, hne]
    · constructor
      · intro x y hx hy hxy
        simp only [upd] at hx hy hxy ⊢
        have hxs : ∀ z, (if z = e then ({ h.events e with stack := { arr := (h.events e).stack.arr, len := (h.events e).stack.len + 1 } } : HEvent)
            else h.events z).stack.arr = (h.events z).stack.arr := by
          intro z; split
          · rename_i hz; rw [hz]
          · rfl
        rw [hxs] at hxy ⊢
        rw [hxs] at hxy
        exact hok.inj x y hx hy hxy
      · intro x hx
        simp only [upd]
        split
        · exact hlt
        · exact hok.lt x hx
      · exact hok.pos
      · simp only; rw [upd_ne _ _ (Ne.symm hnz)]; exact hok.zero
      · intro x hx
        simp only [upd]
        split
        · simp only [if_true, List.length_set]; omega
        · split
          · rename_i h2; rw [List.length_set, ← h2]; exact hok.len x hx
          · exact hok.len x hx
  · rw [if_neg hc]
    have hfull : (h.events e).stack.len = (h.arrays (h.events e).stack.arr).length := by omega
    refine ⟨⟨rfl, rfl, rfl, rfl, rfl, rfl, rfl, rfl, rfl⟩, ?_, ?_, ?_, ?_, Nat.le_succ _, ?_, ?_, ?_, ?_⟩
    · intro x hx; simp [upd, hx]
    · simp [upd]
    · simp only [upd_same]
      rw [List.take_append]
      have hl : (List.take (h.events e).stack.len (h.arrays (h.events e).stack.arr)).length =
          (h.events e).stack.len := by rw [List.length_take]; omega
      rw [List.take_of_length_le (by omega), hl]
      simp
    · simp [upd_same]
    · right; simp [upd_same]
    · intro x l hx _
      simp only; rw [upd_ne _ _ (by omega)]
    · intro x hx _; exact upd_ne _ _ (by omega)
    · constructor
      · intro x y hx hy hxy
        simp only [upd] at hx hy hxy ⊢
        have hltx := hok.lt x hx
        have hlty := hok.lt y hy
        split at hxy
        · split at hxy
          · rename_i h1 h2; exact .inl (h1.trans h2.symm)
          · simp at hxy; omega
        · rename_i hxe
          split at hxy
          · simp at hxy; omega
          · rw [if_neg hxe]; exact hok.inj x y hx hy hxy
      · intro x hx
        simp only [upd]
        split
        · simp
        · exact Nat.lt_succ_of_lt (hok.lt x hx)
      · exact Nat.lt_succ_of_lt hok.pos
      · simp only; rw [upd_ne _ _ (by have := hok.pos; omega)]; exact hok.zero
      · intro x hx
        simp only [upd]
        split
        · simp; omega
        · have := hok.lt x hx
          rw [if_neg (by omega)]
          exact hok.len x hx

theorem core_framesLoop_acc (fr : StdFrame) (more : Bool) (rest : List StdFrame) (acc : List Frame) :
    Core.framesLoop fr more rest acc = acc ++ Core.framesLoop fr more rest [] := by
  induction rest generalizing fr more acc with
  | nil =>
    unfold Core.framesLoop
    cases more <;> cases ignoreStackFrameFunction fr.function <;> simp
  | cons x xs ih =>
    unfold Core.framesLoop
    cases more
    · simp
    · simp only [Bool.true_eq_false, if_false]
      rw [ih, ih x _ (if !ignoreStackFrameFunction fr.function then [] ++ [toFrame fr] else [])]
      cases ignoreStackFrameFunction fr.function <;> simp

theorem framesLoop_spec {h : Heap A} (hok : ArrOK h) {e : Nat} (he : e < h.nextE) (grow : Nat → Nat)
    (fr : StdFrame) (more : Bool) (rest : List StdFrame) :
    StackStep h (h.framesLoop e grow fr more rest) e (Core.framesLoop fr more rest []) := by
  induction rest generalizing h fr more with
  | nil =>
    unfold Heap.framesLoop Core.framesLoop
    cases more
    · exact StackStep.refl hok e
    · simp only [Bool.true_eq_false, if_false]
      cases ignoreStackFrameFunction fr.function
      · exact appendStack_spec hok he _ _
      · exact StackStep.refl hok e
  | cons x xs ih =>
    unfold Heap.framesLoop Core.framesLoop
    cases more
    · exact StackStep.refl hok e
    · simp only [Bool.true_eq_false, if_false]
      rw [core_framesLoop_acc]
      cases ignoreStackFrameFunction fr.function
      · have h1 := appendStack_spec hok he (toFrame fr) grow
        exact h1.trans (ih h1.ok (by rw [h1.same.nextE]; exact he) x _)
      · exact ih hok he x _

end Trc.Heap
