import Verif.Props.StreamHandler

/-!
# C150: what a client can tell from the statistics in its stream
-/

set_option linter.unusedVariables false
set_option linter.unusedSimpArgs false

namespace Trc.Web

open Trc.Broker

/-- The init events sent to the client. -/
def initsOut (out : List Out) : List (Filter × Nat) :=
  out.filterMap fun | .init f n => some (f, n) | _ => none

section
variable (compile : Compile) (cap : Ch → Nat) (k : HCfg)

/-- The one subscription of a request: before it and during it, the channel does not turn. -/
structure K (s : HSt) : Prop where
  early : s.go = .unborn ∨ s.go = .born → ∀ l ∈ s.hist, l.turns k.c = false
  within : s.go = .streaming → ∃ h seg, s.hist = h ++ .subscribed k.g k.c k.f :: seg ∧
    (∀ l ∈ h, l.turns k.c = false) ∧ ∀ l ∈ seg, l.turns k.c = false

theorem K.snoc {s s' : HSt} (hk : K k s) {l : Label} (hl : l.turns k.c = false) (hh : s'.hist = s.hist ++ [l])
    (hg : s'.go = s.go) : K k s' := by
  refine ⟨fun h x hx => ?_, fun h => ?_⟩
  · rw [hg] at h
    rw [hh] at hx
    rcases List.mem_append.mp hx with hx | hx
    · exact hk.early h x hx
    · rw [List.mem_singleton.mp hx]; exact hl
  · rw [hg] at h
    obtain ⟨h₁, seg, e, a, b⟩ := hk.within h
    refine ⟨h₁, seg ++ [l], by rw [hh, e]; simp, a, fun x hx => ?_⟩
    rcases List.mem_append.mp hx with hx | hx
    · exact b x hx
    · rw [List.mem_singleton.mp hx]; exact hl

theorem K.same {s s' : HSt} (hk : K k s) (hh : s'.hist = s.hist) (hg : s'.go = s.go) : K k s' :=
  ⟨fun h => by rw [hh]; exact hk.early (hg ▸ h), fun h => by rw [hh]; exact hk.within (hg ▸ h)⟩

theorem foreign_turns {s : HSt} (hj : J compile cap k s) {l : Label} {b' : St} (hf : foreign k l)
    (hs : Step compile cap s.b l b') : l.turns k.c = false := by
  have fr := foreign_frame compile cap k hj.run (fun t f h => (hj.subs t f h).1) hf hs
  cases hs with
  | subscribe a b c => simp [Label.turns, hf.2]
  | @finish t ch subs' st a b c =>
    simp only [Label.turns, beq_eq_false_iff_ne]
    rintro rfl
    unfold unregister at c
    simp only [Prod.mk.injEq] at c
    have h1 := fr.2.1
    rw [← c.1] at h1
    simp only [upd_same, Option.isSome_none] at h1
    cases h0 : s.b.subs k.c with
    | none => rw [h0] at c; simp at c
    | some x => rw [h0] at h1; simp at h1
  | _ => rfl

theorem k_step {s s' : HSt} (hj : J compile cap k s) (hk : K k s) (hs : HStep compile cap k s s') : K k s' := by
  cases hs with
  | env hf h => exact hk.snoc k (foreign_turns compile cap k hj hf h) rfl rfl
  | ctxDone | stopSignal | enter | tickerPanic | notAcceptable | init | skip | forward | forwardFails | done
  | stopped | leave => exact hk.same k rfl rfl
  | cancelled | wait | unblock | tick | tickError | recv => exact hk.snoc k rfl rfl rfl
  | spawn hp => exact ⟨fun _ => hk.early (.inl (hj.born hp)), fun h => by cases h⟩
  | subscribe hg h =>
    exact ⟨fun h => (by rcases h with h | h <;> cases h),
      fun _ => ⟨s.hist, [], rfl, hk.early (.inr hg), fun l hl => by cases hl⟩⟩
  | refused | streamReturns | streamFails | close =>
    exact ⟨fun h => (by rcases h with h | h <;> cases h), fun h => by cases h⟩

theorem reach_k {s : HSt} (hr : HReach compile cap k s) : K k s := by
  unfold HReach at hr
  induction hr with
  | refl => exact ⟨fun _ l hl => (by cases hl), fun h => by cases h⟩
  | snoc h hs ih => exact k_step compile cap k (reach_j compile cap k h) ih hs

theorem hist_grows {s s' : HSt} (hs : HSteps compile cap k s s') : ∃ more, s'.hist = s.hist ++ more := by
  induction hs with
  | refl => exact ⟨[], by simp⟩
  | snoc _ h ih =>
    obtain ⟨more, e⟩ := ih
    cases h with
    | env | subscribe | refused | cancelled | streamReturns | streamFails | wait | unblock | tick | tickError | recv =>
      exact ⟨more ++ [_], by simp only [e, List.append_assoc]; rfl⟩
    | _ => exact ⟨more, e⟩

theorem failed_back {s s' : HSt} (hs : HSteps compile cap k s s') (h : s'.failed = false) : s.failed = false := by
  induction hs with
  | refl => exact h
  | snoc _ hs ih =>
    apply ih
    cases hs with
    | forwardFails => cases h
    | _ => exact h

/-- The statistics were taken by a handler in its loop that had sent `o₁`. -/
def Taken (s : HSt) (o₁ : List Out) (st : StreamStats) : Prop :=
  ∃ s₁ s₂ b', HReach compile cap k s₁ ∧ HSteps compile cap k s₁ s₂ ∧ HSteps compile cap k s₂ s ∧ s₁.out = o₁ ∧
    s₁.pc = .loop ∧ Step compile cap s₁.b (.stats k.c (some st)) b' ∧
    s₂.hist = s₁.hist ++ [.stats k.c (some st)]

/-- Statistics in the stream were taken by a handler in its loop, after what is before them was sent. -/
theorem stats_sent {s : HSt} (hr : HReach compile cap k s) {o₁ o₂ : List Out} {st : StreamStats}
    (e : s.out = o₁ ++ .stats st :: o₂) :
    Taken compile cap k s o₁ st := by
  unfold HReach at hr
  induction hr generalizing o₂ with
  | refl => simp at e
  | @snoc s s' h hs ih =>
    have same : s'.out = s.out → Taken compile cap k s' o₁ st := fun heq => by
      obtain ⟨s₁, s₂, b', a, b, c, d⟩ := ih (heq ▸ e)
      exact ⟨s₁, s₂, b', a, b, .snoc c hs, d⟩
    have grown : ∀ o, s'.out = s.out ++ [o] → (∀ st, o ≠ .stats st) →
        Taken compile cap k s' o₁ st := fun o heq ho => by
      rw [heq] at e
      rcases List.append_eq_append_iff.mp e with ⟨a, ha, hb⟩ | ⟨a, ha, hb⟩
      · cases a with
        | nil => simp only [List.nil_append, List.cons.injEq] at hb; exact absurd hb.1 (ho _)
        | cons x a => simp at hb
      · cases a with
        | nil => simp only [List.nil_append, List.cons.injEq] at hb; exact absurd hb.1.symm (ho _)
        | cons x a =>
          simp only [List.cons_append, List.cons.injEq] at hb
          obtain ⟨rfl, -⟩ := hb
          obtain ⟨s₁, s₂, b', a, b, c, d⟩ := ih ha
          exact ⟨s₁, s₂, b', a, b, .snoc c hs, d⟩
    cases hs with
    | @init ok hp hi =>
      cases ok with
      | true => exact grown _ rfl (by simp)
      | false => exact same rfl
    | @tick b' st' ok hp hst =>
      cases ok with
      | false => exact same rfl
      | true =>
        have e : s.out ++ [Out.stats st'] = o₁ ++ .stats st :: o₂ := e
        rcases List.append_eq_append_iff.mp e with ⟨a, ha, hb⟩ | ⟨a, ha, hb⟩
        · cases a with
          | nil =>
            simp only [List.nil_append, List.cons.injEq, Out.stats.injEq] at hb
            obtain ⟨rfl, -⟩ := hb
            exact ⟨s, _, b', h, .snoc .refl (.tick (ok := true) hp hst), .refl, by simpa using ha.symm, hp, hst, rfl⟩
          | cons x a => simp at hb
        · cases a with
          | nil =>
            simp only [List.nil_append, List.cons.injEq, Out.stats.injEq] at hb
            obtain ⟨rfl, -⟩ := hb
            exact ⟨s, _, b', h, .snoc .refl (.tick (ok := true) hp hst), .refl, by simpa using ha, hp, hst, rfl⟩
          | cons x a =>
            simp only [List.cons_append, List.cons.injEq] at hb
            obtain ⟨rfl, -⟩ := hb
            obtain ⟨s₁, s₂, b'', a, b, c, d⟩ := ih ha
            exact ⟨s₁, s₂, b'', a, b, .snoc c (.tick (ok := true) hp hst), d⟩
    | @forward x hp hne => exact grown _ rfl (by simp)
    | _ => exact same rfl

/-- What there is to know when statistics are taken. -/
theorem at_stats {s : HSt} (hr : HReach compile cap k s) {st : StreamStats} {b' : St}
    (hs : Step compile cap s.b (.stats k.c (some st)) b') :
    ∃ h seg, s.hist = h ++ .subscribed k.g k.c k.f :: seg ∧ (∀ l ∈ h, l.turns k.c = false) ∧
      (∀ l ∈ seg, l.turns k.c = false) ∧ Session k.c s.hist k.g k.f seg ∧ Accounts compile k.c k.f seg st ∧
      sentTo k.c s.hist = sentTo k.c seg ∧ s.b.lock = none := by
  have hj := reach_j compile cap k hr
  have hk := reach_k compile cap k hr
  have hlock : s.b.lock = none := by
    generalize hl : Label.stats k.c (some st) = l at hs
    cases hs with
    | stats a => exact a
    | _ => cases hl
  have hrun : Run compile cap (s.hist ++ [.stats k.c (some st)]) b' := .step hj.run hs
  obtain ⟨t, f, seg, hsess, hacc⟩ := C49_stream_stats compile cap hrun (h₁ := s.hist) (h₂ := []) rfl
  have hgo : s.go = .streaming := by
    cases hg : s.go.inStream with
    | true => cases h : s.go <;> rw [h] at hg <;> first | rfl | cases hg
    | false =>
      have h0 := hj.nosub compile cap k hg
      exact absurd ((run_inv compile cap hj.run).closed _ h0) (not_session_closed hsess)
  obtain ⟨h, seg', e, a, b⟩ := hk.within hgo
  obtain ⟨h', e'⟩ := hsess.split
  have htf := hj.subs t f (by rw [e']; simp)
  obtain ⟨rfl, rfl⟩ := htf
  have heq : h = h' ∧ seg' = seg := by
    rw [e] at e'
    rcases List.append_eq_append_iff.mp e' with ⟨x, hx, hy⟩ | ⟨x, hx, hy⟩
    · cases x with
      | nil => simp at hx hy; exact ⟨hx.symm, hy⟩
      | cons z x =>
        simp only [List.cons_append, List.cons.injEq] at hy
        have := b (.subscribed k.g k.c k.f) (by rw [hy.2]; simp)
        simp [Label.turns] at this
    · cases x with
      | nil => simp at hx hy; exact ⟨hx, hy.symm⟩
      | cons z x =>
        simp only [List.cons_append, List.cons.injEq] at hy
        have := a (.subscribed k.g k.c k.f) (by rw [hx, ← hy.1]; simp)
        simp [Label.turns] at this
  obtain ⟨rfl, rfl⟩ := heq
  refine ⟨h, seg', e, a, b, hsess, hacc, ?_, hlock⟩
  have hv : verdicts k.c h = [] := by
    rw [List.eq_nil_iff_forall_not_mem]
    rintro ⟨x, v⟩ hx
    unfold verdicts at hx
    obtain ⟨l, hl, hxv⟩ := List.mem_filterMap.mp hx
    cases l with
    | visited c str v' =>
      simp only at hxv
      split at hxv
      · rename_i hc
        subst hc
        obtain ⟨h₁, h₂, eh⟩ := List.append_of_mem hl
        obtain ⟨t, f, seg₀, hs0, -⟩ := C51_verdict compile cap hj.run (h₁ := h₁)
          (h₂ := h₂ ++ .subscribed k.g k.c k.f :: seg') (ch := k.c) (str := str) (v := v') (by rw [e, eh]; simp)
        obtain ⟨⟨h₀, e0⟩, -, -⟩ := hs0
        have := a (.subscribed t k.c f) (by rw [eh, e0]; simp)
        simp [Label.turns] at this
      · cases hxv
    | _ => cases hxv
  have : verdicts k.c s.hist = verdicts k.c seg' := by
    rw [e, verdicts_append, hv, List.nil_append]; rfl
  unfold sentTo
  rw [this]

/-! ## C150 -/

/-- **C150**.  A client is told at most once what it gets, and what it is told is right: the filter
of its request, and the size of its buffer. -/
theorem C150_init {s : HSt} (hr : HReach compile cap k s) :
    (initsOut s.out).length ≤ 1 ∧ ∀ p ∈ initsOut s.out, p = (k.f, cap k.c) := by
  have key : (s.initc = true → initsOut s.out = []) ∧
      (initsOut s.out = [] ∨ initsOut s.out = [(k.f, cap k.c)]) := by
    unfold HReach at hr
    induction hr with
    | refl => exact ⟨fun _ => rfl, .inl rfl⟩
    | @snoc s s' h hs ih =>
      cases hs with
      | @init ok hp hi =>
        refine ⟨fun h => (by cases h), ?_⟩
        cases ok with
        | true =>
          have : initsOut (s.out ++ [.init k.f (cap k.c)]) = initsOut s.out ++ [(k.f, cap k.c)] :=
            List.filterMap_append ..
          exact .inr (by simp only [emit, if_true]; rw [this, ih.1 hi]; rfl)
        | false => exact .inl (ih.1 hi)
      | @tick _ st ok =>
        cases ok with
        | true =>
          have : initsOut (s.out ++ [.stats st]) = initsOut s.out := by simp [initsOut, List.filterMap_append]
          exact ⟨fun h => (by simp only [emit, if_true]; rw [this]; exact ih.1 h),
            by simp only [emit, if_true]; rw [this]; exact ih.2⟩
        | false => exact ih
      | @forward x =>
        have : initsOut (s.out ++ [.trace x]) = initsOut s.out := by simp [initsOut, List.filterMap_append]
        exact ⟨fun h => (by simp only; rw [this]; exact ih.1 h), by simp only; rw [this]; exact ih.2⟩
      | _ => exact ih
  rcases key.2 with h | h <;> rw [h] <;> simp

open Classical in
/-- **C150**.  Statistics in the stream count every trace that was published between the subscription
and that moment exactly once: as skipped if it does not satisfy the filter, and else as sent or as
dropped.  Those sent are the ones that the client was sent before the statistics, in order, and at
most as many that wait in the buffer, and the messages about its own request. -/
theorem C150_stats {s : HSt} (hr : HReach compile cap k s) (hf : k.f.Fresh compile) (hok : s.failed = false)
    {o₁ o₂ : List Out} {st : StreamStats} (e : s.out = o₁ ++ .stats st :: o₂) :
    ∃ (h seg rest : List Label) (done waiting : List Static),
      s.hist = h ++ .subscribed k.g k.c k.f :: seg ++ rest ∧
      st.skips = (published seg).countP (fun x => decide (¬ k.f.Sat compile x)) ∧
      st.sends + st.drops = (published seg).countP (fun x => decide (k.f.Sat compile x)) ∧
      st.sends = done.length + waiting.length ∧ waiting.length ≤ cap k.c ∧
      tracesOut o₁ = done.filter (fun x => x.id ≠ k.own) ∧
      (done ++ waiting).Sublist ((published seg).filter fun x => decide (k.f.Sat compile x)) := by
  obtain ⟨s₁, s₂, b', r1, r12, r2, ho, hp, hst, -⟩ := stats_sent compile cap k hr e
  have r2 := HSteps.trans compile cap k r12 r2
  obtain ⟨h, seg, eh, -, -, hsess, hacc, hsent, hlock⟩ := at_stats compile cap k r1 hst
  obtain ⟨more, em⟩ := hist_grows compile cap k r2
  have hj := reach_j compile cap k r1
  obtain ⟨done, d1, -, d3⟩ := hj.out
  have d3 := d3 (failed_back compile cap k r2 hok)
  rw [hp, show pcVal .loop = [] from rfl, List.append_nil] at d1
  obtain ⟨q1, q2, -⟩ := C50_received compile cap hj.run k.c
  rw [d1, hsent] at q1
  obtain ⟨done', last, fate, p1, -, p2, p3, p4, p5⟩ := C50_sent compile cap hj.run hsess hf
  rw [p2 hlock, List.append_nil] at p1
  have hsk := hacc.skips hf
  have htot := hacc.total
  have hcnt : (published seg).length = (published seg).countP (fun x => decide (k.f.Sat compile x)) +
      (published seg).countP (fun x => decide (¬ k.f.Sat compile x)) := by
    rw [List.length_eq_countP_add_countP (fun x => decide (k.f.Sat compile x))]
    congr 1
    apply List.countP_congr
    intro x _
    simp
  refine ⟨h, seg, more, done, (s₁.b.chans k.c).buf, by rw [em, eh], hsk, by omega, ?_, q2, ho ▸ d3, ?_⟩
  · rw [hacc.sends, ← q1, List.length_append]
  · rw [q1, p4, p1, ← p3]
    exact List.filter_sublist.map _

open Classical in
/-- **C150**.  A client whose statistics say that nothing was dropped has missed nothing: what it was
sent before them are the first of the matching traces published since the subscription, in order and
without gaps, and no more than fit in the buffer, and those of its own request, are missing. -/
theorem C150_nothing_missed {s : HSt} (hr : HReach compile cap k s) (hf : k.f.Fresh compile)
    (hok : s.failed = false) {o₁ o₂ : List Out} {st : StreamStats} (e : s.out = o₁ ++ .stats st :: o₂)
    (hd : st.drops = 0) :
    ∃ (h seg rest : List Label) (waiting : List Static),
      s.hist = h ++ .subscribed k.g k.c k.f :: seg ++ rest ∧ waiting.length ≤ cap k.c ∧
      tracesOut o₁ ++ waiting = (published seg).filter (fun x => decide (k.f.Sat compile x ∧ x.id ≠ k.own)) := by
  obtain ⟨h, seg, rest, done, waiting, a1, -, a3, a4, a5, a6, a7⟩ := C150_stats compile cap k hr hf hok e
  have heq : done ++ waiting = (published seg).filter fun x => decide (k.f.Sat compile x) := by
    apply a7.eq_of_length
    rw [← List.countP_eq_length_filter, ← a3, List.length_append]
    omega
  refine ⟨h, seg, rest, waiting.filter fun x => x.id ≠ k.own, a1,
    Nat.le_trans (List.length_filter_le ..) a5, ?_⟩
  rw [a6, ← List.filter_append, heq, List.filter_filter]
  apply List.filter_congr
  intro x _
  simp [Bool.and_comm]

/-- **C150**.  The numbers never go back: later statistics of a stream are no less than earlier ones, and
together they have grown by the number of traces published between them. -/
theorem C150_grows {s : HSt} (hr : HReach compile cap k s) (hf : k.f.Fresh compile)
    {o₁ o₂ o₃ : List Out} {st st' : StreamStats} (e : s.out = o₁ ++ .stats st :: (o₂ ++ .stats st' :: o₃)) :
    st.skips ≤ st'.skips ∧ st.sends ≤ st'.sends ∧ st.drops ≤ st'.drops ∧
      ∃ h seg rest : List Label,
        s.hist = h ++ .stats k.c (some st) :: seg ++ .stats k.c (some st') :: rest ∧
        st'.skips + st'.sends + st'.drops = st.skips + st.sends + st.drops + (published seg).length := by
  obtain ⟨s₂, s₂', b₂, r2, r22, r2', ho2, -, hst2, g2⟩ :=
    stats_sent compile cap k hr (o₁ := o₁ ++ .stats st :: o₂) (o₂ := o₃) (st := st') (by rw [e]; simp)
  obtain ⟨s₁, s₁', b₁, r1, r11, r1', ho1, -, hst1, g1⟩ := stats_sent compile cap k r2 ho2
  obtain ⟨h, seg, eh, a, b, -, hacc, -, -⟩ := at_stats compile cap k r1 hst1
  obtain ⟨h', seg', eh', a', b', -, hacc', -, -⟩ := at_stats compile cap k r2 hst2
  obtain ⟨more', em'⟩ := hist_grows compile cap k r1'
  obtain ⟨rest, er⟩ := hist_grows compile cap k r2'
  obtain ⟨more, hm⟩ : ∃ more, more = Label.stats k.c (some st) :: more' := ⟨_, rfl⟩
  have em : s₂.hist = s₁.hist ++ more := by rw [em', g1, hm]; simp
  have hseg : seg' = seg ++ more := by
    have e3 : h' ++ .subscribed k.g k.c k.f :: seg' = h ++ .subscribed k.g k.c k.f :: (seg ++ more) := by
      rw [← eh', em, eh]; simp
    rcases List.append_eq_append_iff.mp e3 with ⟨x, hx, hy⟩ | ⟨x, hx, hy⟩
    · cases x with
      | nil => simp at hy; exact hy
      | cons z x =>
        simp only [List.cons_append, List.cons.injEq] at hy
        have := a (.subscribed k.g k.c k.f) (by rw [hx, ← hy.1]; simp)
        simp [Label.turns] at this
    · cases x with
      | nil => simp at hy; exact hy.symm
      | cons z x =>
        simp only [List.cons_append, List.cons.injEq] at hy
        have := a' (.subscribed k.g k.c k.f) (by rw [hx, ← hy.1]; simp)
        simp [Label.turns] at this
  subst hseg
  refine ⟨?_, ?_, ?_, s₁.hist, more', rest, by rw [er, g2, em, hm]; simp, ?_⟩
  · rw [hacc.skips hf, hacc'.skips hf, published_append, List.countP_append]; omega
  · rw [hacc.sends, hacc'.sends, sentTo_append, List.length_append]; omega
  · rw [hacc.drops, hacc'.drops, droppedFor, droppedFor, verdicts_append, List.filterMap_append, List.length_append]
    omega
  · rw [hacc.total, hacc'.total, published_append, List.length_append, hm]; rfl

theorem stats_step {b : St} {ch : Ch} {sub : Sub} (hl : b.lock = none) (h : b.subs ch = some sub) :
    Step compile cap b (.stats ch (some sub.stats)) b := by
  have := Step.stats (compile := compile) (cap := cap) (ch := ch) hl
  rwa [streamStats, h] at this

theorem told_run (hi : 0 < k.interval) (hc : 0 < cap k.c) {x : Static}
    (hx : (k.f.allow compile x).1 = true) (ho : x.id ≠ k.own) :
    ∃ s s', HReach compile cap k s ∧ s.failed = false ∧
      s.out = [.trace x, .stats ⟨0, 1, 0⟩, .init k.f (cap k.c)] ∧ HReach compile cap k s' ∧ s'.failed = false ∧
      s'.out = [.trace x, .stats ⟨0, 1, 0⟩, .init k.f (cap k.c), .stats ⟨0, 1, 0⟩] := by
  have h1 : HStep compile cap k {} { pc := .serving, go := .born } := .spawn rfl
  have h2 := HStep.enter (compile := compile) (cap := cap) (k := k) (s := { pc := .serving, go := .born }) rfl hi
  have h3 := HStep.subscribe (compile := compile) (cap := cap) (k := k) (s := { pc := .loop, go := .born }) rfl
    (.subscribe (subs' := upd (fun _ => none) k.c (some { filter := k.f })) rfl rfl rfl)
  have h4 := HStep.env (compile := compile) (cap := cap) (k := k) (l := .publish x)
    (s := { pc := .loop, go := .streaming, hist := [.subscribed k.g k.c k.f],
            b := { subs := upd (fun _ => none) k.c (some { filter := k.f }), threads := upd (fun _ => .idle) k.g (.streaming k.c) } })
    trivial (.publish (order := [k.c]) rfl ⟨by simp, fun ch => by
      by_cases e : ch = k.c
      · subst e; simp [upd]
      · simp [upd, e]⟩)
  have hv : visit compile (cap k.c) { filter := k.f } {} x =
      ({ filter := (k.f.allow compile x).2, stats := ⟨0, 1, 0⟩ }, { buf := [x] }, .sent none) := by
    unfold visit
    simp only [hx, Bool.not_true, Bool.false_eq_true, if_false, send, trySend, List.length_nil, if_pos hc,
      List.nil_append]
  have h5 := HStep.env (compile := compile) (cap := cap) (k := k) (l := .visited k.c x (.sent none))
    (s := { pc := .loop, go := .streaming, hist := [.subscribed k.g k.c k.f, .publish x],
            b := { subs := upd (fun _ => none) k.c (some { filter := k.f }), threads := upd (fun _ => .idle) k.g (.streaming k.c),
                   lock := some (x, [k.c]) } })
    trivial (.visit (rest := []) (sub := { filter := k.f }) rfl (by simp) hv)
  have h6 := HStep.env (compile := compile) (cap := cap) (k := k) (l := .release)
    (s := { pc := .loop, go := .streaming, hist := [.subscribed k.g k.c k.f, .publish x, .visited k.c x (.sent none)],
            b := { subs := upd (upd (fun _ => none) k.c (some { filter := k.f })) k.c (some { filter := (k.f.allow compile x).2, stats := ⟨0, 1, 0⟩ }),
                   threads := upd (fun _ => .idle) k.g (.streaming k.c), chans := upd (fun _ => {}) k.c { buf := [x] },
                   lock := some (x, []) } })
    trivial (.release rfl)
  have h7 := HStep.recv (compile := compile) (cap := cap) (k := k) (x := x)
    (s := { pc := .loop, go := .streaming, hist := [.subscribed k.g k.c k.f, .publish x, .visited k.c x (.sent none), .release],
            b := { subs := upd (upd (fun _ => none) k.c (some { filter := k.f })) k.c (some { filter := (k.f.allow compile x).2, stats := ⟨0, 1, 0⟩ }),
                   threads := upd (fun _ => .idle) k.g (.streaming k.c), chans := upd (fun _ => {}) k.c { buf := [x] } } })
    rfl (.recv (xs := []) (by simp))
  have r7 : HReach compile cap k _ := .snoc (.snoc (.snoc (.snoc (.snoc (.snoc (.snoc .refl h1) h2) h3) h4) h5) h6) h7
  have r8 := HSteps.snoc r7 (.forward (x := x) rfl ho)
  have r9 := HSteps.snoc r8 (.tick (st := ⟨0, 1, 0⟩) (ok := true) rfl
    (stats_step compile cap (sub := { filter := (k.f.allow compile x).2, stats := ⟨0, 1, 0⟩ }) rfl (by simp)))
  have r10 := HSteps.snoc r9 (.init (ok := true) rfl rfl)
  have r11 := HSteps.snoc r10 (.tick (st := ⟨0, 1, 0⟩) (ok := true) rfl
    (stats_step compile cap (sub := { filter := (k.f.allow compile x).2, stats := ⟨0, 1, 0⟩ }) rfl (by simp)))
  exact ⟨_, _, r10, rfl, rfl, r11, rfl, rfl⟩

/-- **C150 is false as stated**: nothing makes a stream begin with what it streams.  For every request with
a buffer and every trace that satisfies its filter, the client may be sent the trace and the statistics
first, and only then the filter and the size of the buffer. -/
theorem C150_first_always_violated (hi : 0 < k.interval) (hc : 0 < cap k.c) {x : Static}
    (hx : (k.f.allow compile x).1 = true) (ho : x.id ≠ k.own) :
    ∃ s, HReach compile cap k s ∧ s.failed = false ∧
      s.out = [.trace x, .stats ⟨0, 1, 0⟩, .init k.f (cap k.c)] :=
  let ⟨s, _, h1, h2, h3, _⟩ := told_run compile cap k hi hc hx ho
  ⟨s, h1, h2, h3⟩

end

/-! ## Witnesses -/

namespace Example

def cap1 : Ch → Nat := fun _ => 1

/-- A stream with a trace, statistics, the init event and statistics again: the hypotheses of `C150_stats`,
`C150_nothing_missed` and `C150_grows` are met. -/
example : ∃ s, HReach compile cap1 k s ∧ k.f.Fresh compile ∧ s.failed = false ∧
    s.out = [.trace (tr "x")] ++ .stats ⟨0, 1, 0⟩ :: ([.init k.f 1] ++ .stats ⟨0, 1, 0⟩ :: []) := by
  obtain ⟨-, s, -, -, -, h1, h2, h3⟩ := told_run compile cap1 k (by decide) (by decide) (x := tr "x") rfl (by decide)
  exact ⟨s, h1, fun re h => (by cases h), h2, h3⟩

/-- The hypotheses of `C150_first_always_violated` are met. -/
example : 0 < k.interval ∧ 0 < cap1 k.c ∧ (k.f.allow compile (tr "x")).1 = true ∧ (tr "x").id ≠ k.own :=
  ⟨by decide, by decide, rfl, by decide⟩

end Example

end Trc.Web
