import Verif.Web.StreamClient
import Verif.Web.JSONLemmas
import Verif.Props.StreamHandler

/-!
# C81, C82: the reading loop of the stream client
-/

namespace Trc.Web

open Trc.Broker

/-! ## Specification -/

/-- The trace that an event carries. -/
def SSE.trace? (ev : SSE) : Option Static :=
  if ev.type = "trace" then unmarshal zeroStatic decStatic ev.data else none

/-- An event that the client cannot make sense of: a trace or statistics that do not decode. -/
def SSE.Bad (ev : SSE) : Prop :=
  (ev.type = "trace" ∧ unmarshal zeroStatic decStatic ev.data = none) ∨
  (ev.type = "stats" ∧ unmarshal (0, 0, 0) decStreamStats ev.data = none)

def traces (evs : List SSE) : List Static := evs.filterMap SSE.trace?

/-- The trace that is being handed over. -/
def pending : CPC → List Static
  | .sending x => [x]
  | _ => []

theorem traces_snoc (evs : List SSE) (ev : SSE) : traces (evs ++ [ev]) = traces evs ++ pending (dispatch ev) := by
  unfold traces
  rw [List.filterMap_append]
  congr 1
  simp only [List.filterMap_cons, List.filterMap_nil, SSE.trace?, dispatch]
  by_cases h : ev.type = "trace"
  · simp only [h, if_true, if_neg (show ¬ ("trace" = "init") by decide)]
    cases unmarshal zeroStatic decStatic ev.data <;> rfl
  · simp only [h, if_false]
    split
    · rfl
    · split
      · split <;> rfl
      · rfl

theorem dispatch_bad (ev : SSE) : (∃ r, dispatch ev = .returned r) ↔ ev.Bad := by
  unfold dispatch SSE.Bad
  by_cases hi : ev.type = "init"
  · simp [hi]
  · by_cases ht : ev.type = "trace"
    · simp only [ht, if_true, if_neg (show ¬ ("trace" = "init") by decide), true_and]
      cases unmarshal zeroStatic decStatic ev.data <;> simp
    · by_cases hs : ev.type = "stats"
      · simp only [hs, if_true, if_neg (show ¬ ("stats" = "init") by decide), if_neg (show ¬ ("stats" = "trace") by decide), true_and]
        cases unmarshal (0, 0, 0) decStreamStats ev.data <;> simp
      · simp [hi, ht, hs]

theorem dispatch_kind (ev : SSE) (r : CRes) (h : dispatch ev = .returned r) : r = .badTrace ∨ r = .badStats := by
  unfold dispatch at h
  split at h
  · cases h
  · split at h
    · split at h
      · cases h
      · cases h; exact .inl rfl
    · split at h
      · split at h
        · cases h
        · cases h; exact .inr rfl
      · cases h

/-! ## Invariant -/

structure CInv (s : CSt) : Prop where
  closed : s.closed = true → s.ctx = true
  sub : (s.sent ++ pending s.pc).Sublist (traces s.read)
  all : s.ctx = false → s.sent ++ pending s.pc = traces s.read
  good : (∀ r, s.pc = .returned r → r = .nil ∨ r = .readError) → ∀ ev ∈ s.read, ¬ ev.Bad
  bad : ∀ r, s.pc = .returned r → r = .badTrace ∨ r = .badStats →
    ∃ evs ev, s.read = evs ++ [ev] ∧ ev.Bad ∧ ∀ e ∈ evs, ¬ e.Bad
  nilRes : s.pc = .returned .nil → s.closed = true ∨ s.gone = true

theorem cinv_init : CInv {} :=
  ⟨by simp, by simp [traces, pending], by simp [traces, pending], by simp, by simp, by simp⟩

theorem cinv_step {s s' : CSt} (h : CStep s s') (hi : CInv s) : CInv s' := by
  cases h with
  | cancel => exact ⟨fun _ => rfl, hi.sub, by simp, hi.good, hi.bad, hi.nilRes⟩
  | sentAway => exact ⟨hi.closed, hi.sub, hi.all, hi.good, hi.bad, fun _ => .inr rfl⟩
  | close hc => exact ⟨fun _ => hc, hi.sub, hi.all, hi.good, hi.bad, fun _ => .inl rfl⟩
  | readClosed hp hc =>
    have hs := hi.sub; have ha := hi.all
    rw [hp] at hs ha
    exact ⟨hi.closed, hs, ha, fun _ => hi.good (by simp [hp]), by intro r hr h; cases hr; simp at h, fun _ => hc⟩
  | readFails hp =>
    have hs := hi.sub; have ha := hi.all
    rw [hp] at hs ha
    exact ⟨hi.closed, hs, ha, fun _ => hi.good (by simp [hp]), by intro r hr h; cases hr; simp at h, by simp⟩
  | @readEvent ev hp =>
    have hs := hi.sub; have ha := hi.all
    rw [hp] at hs ha
    simp only [pending, List.append_nil] at hs ha
    have hg := hi.good (by simp [hp])
    refine ⟨hi.closed, ?_, fun hc => ?_, fun hr => ?_, fun r hr hk => ?_, fun hr => ?_⟩
    · simp only [traces_snoc]
      exact List.Sublist.append hs (List.Sublist.refl _)
    · simp only [traces_snoc]
      rw [ha hc]
    · intro e he
      simp only [List.mem_append, List.mem_singleton] at he
      rcases he with he | rfl
      · exact hg e he
      · intro hb
        obtain ⟨r, hd⟩ := (dispatch_bad e).2 hb
        have h1 := hr r hd
        have h2 := dispatch_kind e r hd
        rcases h1 with rfl | rfl <;> simp at h2
    · exact ⟨s.read, ev, rfl, (dispatch_bad ev).1 ⟨r, hr⟩, hg⟩
    · have := dispatch_kind ev _ hr
      simp at this
  | skip hp hc =>
    have hs := hi.sub
    rw [hp] at hs
    refine ⟨hi.closed, ?_, fun h => ?_, fun _ => hi.good (by simp [hp]), by simp, by simp⟩
    · simp only [pending, List.append_nil] at hs ⊢
      exact (List.sublist_append_left _ _).trans hs
    · simp only at h; rw [hc] at h; cases h
  | send hp =>
    have hs := hi.sub; have ha := hi.all
    rw [hp] at hs ha
    refine ⟨hi.closed, ?_, fun h => ?_, fun _ => hi.good (by simp [hp]), by simp, by simp⟩
    · simpa [pending] using hs
    · simpa [pending] using ha h

theorem csteps_inv {s s' : CSt} (h : CSteps s s') (hi : CInv s) : CInv s' := by
  induction h with
  | refl => exact hi
  | snoc _ h ih => exact cinv_step h ih

theorem creach_inv {s : CSt} (h : CReach s) : CInv s := csteps_inv h cinv_init

/-! ## C81 -/

/-- **C81** The traces handed to the caller's channel are the traces of the events read, in order and
once each; until the context is cancelled, all of them (the last one may be waiting for the channel). -/
theorem C81_in_order {s : CSt} (h : CReach s) :
    (s.sent ++ pending s.pc).Sublist (traces s.read) ∧ (s.ctx = false → s.sent ++ pending s.pc = traces s.read) :=
  ⟨(creach_inv h).sub, (creach_inv h).all⟩

/-- **C81** `Stream` fails with a decoding error exactly if the last event it read was a trace or
statistics that do not decode, and it never reads past such an event. -/
theorem C81_bad_event {s : CSt} (h : CReach s) :
    (s.pc = .returned .badTrace ∨ s.pc = .returned .badStats) ↔ ∃ ev ∈ s.read, ev.Bad := by
  have hi := creach_inv h
  constructor
  · intro hp
    obtain ⟨evs, ev, he, hb, _⟩ : ∃ evs ev, s.read = evs ++ [ev] ∧ ev.Bad ∧ ∀ e ∈ evs, ¬ e.Bad := by
      rcases hp with hp | hp
      · exact hi.bad _ hp (.inl rfl)
      · exact hi.bad _ hp (.inr rfl)
    exact ⟨ev, by rw [he]; simp, hb⟩
  · intro ⟨ev, he, hb⟩
    refine Classical.byContradiction fun hn => hi.good ?_ ev he hb
    intro r hr
    cases r with
    | nil => exact .inl rfl
    | readError => exact .inr rfl
    | badTrace => exact absurd (.inl hr) hn
    | badStats => exact absurd (.inr hr) hn

/-- **C81** Only the last event can be such a one. -/
theorem C81_stops_at_bad {s : CSt} (h : CReach s) {evs rest : List SSE} {ev : SSE} (he : s.read = evs ++ ev :: rest) (hb : ev.Bad) :
    rest = [] ∧ ∀ e ∈ evs, ¬ e.Bad := by
  have hi := creach_inv h
  have hp := (C81_bad_event h).2 ⟨ev, by rw [he]; simp, hb⟩
  obtain ⟨evs', ev', he', hb', hg⟩ : ∃ evs ev, s.read = evs ++ [ev] ∧ ev.Bad ∧ ∀ e ∈ evs, ¬ e.Bad := by
    rcases hp with hp | hp
    · exact hi.bad _ hp (.inl rfl)
    · exact hi.bad _ hp (.inr rfl)
  rw [he] at he'
  rcases List.eq_nil_or_concat rest with rfl | ⟨r, l, rfl⟩
  · refine ⟨rfl, ?_⟩
    have := List.append_inj_left' he' rfl
    rw [this]; exact hg
  · exfalso
    have h2 : evs ++ ev :: r = evs' := by
      have : (evs ++ ev :: r) ++ [l] = evs' ++ [ev'] := by rw [← he']; simp
      exact List.append_inj_left' this rfl
    exact hg ev (by rw [← h2]; simp) hb

/-- **C81** Once `Stream` has returned, nothing is read and nothing is handed over any more. -/
theorem C81_final {s s' : CSt} {r : CRes} (hp : s.pc = .returned r) (h : CSteps s s') :
    s'.pc = .returned r ∧ s'.read = s.read ∧ s'.sent = s.sent := by
  induction h with
  | refl => exact ⟨hp, rfl, rfl⟩
  | snoc _ h ih =>
    obtain ⟨i1, i2, i3⟩ := ih
    cases h with
    | cancel | sentAway | close => exact ⟨i1, i2, i3⟩
    | readClosed h | readFails h | readEvent h | skip h | send h => rw [i1] at h; cases h

/-- **C81** After the context is cancelled `Stream` can return nil without the receiver's help,
whatever it was doing. -/
theorem C81_can_return {s : CSt} (hc : s.ctx = true) (hp : ∀ r, s.pc ≠ .returned r) :
    ∃ s', CSteps s s' ∧ s'.pc = .returned .nil ∧ s'.sent = s.sent := by
  cases hpc : s.pc with
  | returned r => exact absurd hpc (hp r)
  | reading =>
    exact ⟨_, .snoc (.snoc .refl (.close hc)) (.readClosed hpc (.inl rfl)), rfl, rfl⟩
  | sending x =>
    exact ⟨_, .snoc (.snoc (.snoc .refl (.skip hpc hc)) (.close hc)) (.readClosed rfl (.inl rfl)), rfl, rfl⟩

/-! ### With the handler at the other end -/

theorem streamStats_rt (st : StreamStats) : decStreamStats (encStreamStats st) = some ((st.skips : Int), (st.sends : Int), (st.drops : Int)) := by
  unfold decStreamStats encStreamStats
  simp [decObj, get, lookup, field, decInt]

theorem encOut_trace (o : Out) : (encOut o).trace? = (match o with | .trace x => some (wireStatic x) | _ => none) := by
  cases o with
  | init f n => simp [encOut, SSE.trace?]
  | stats st => simp [encOut, SSE.trace?]
  | trace x =>
    simp only [encOut, SSE.trace?, if_true]
    rw [show unmarshal zeroStatic decStatic (some (encStatic x)) = decStatic (encStatic x) from rfl, static_rt]

theorem encOut_good (o : Out) : ¬ (encOut o).Bad := by
  cases o with
  | init f n => simp [encOut, SSE.Bad]
  | stats st =>
    simp only [encOut, SSE.Bad]
    rintro (⟨h, _⟩ | ⟨_, h⟩)
    · exact absurd h (by decide)
    · rw [show unmarshal (0, 0, 0) decStreamStats (some (encStreamStats st)) = decStreamStats (encStreamStats st) from rfl,
        streamStats_rt] at h
      cases h
  | trace x =>
    have := encOut_trace (.trace x)
    simp only [SSE.trace?, encOut, if_true] at this
    simp only [encOut, SSE.Bad]
    rintro (⟨_, h⟩ | ⟨h, _⟩)
    · rw [h] at this; cases this
    · exact absurd h (by decide)

theorem traces_encOut (outs : List Out) : traces (outs.map encOut) = (tracesOut outs).map wireStatic := by
  induction outs with
  | nil => rfl
  | cons o outs ih =>
    unfold traces tracesOut at *
    simp only [List.map_cons, List.filterMap_cons, encOut_trace]
    cases o <;> simp [ih]

/-- What one connection carried: a beginning of what the handler of some request of this client wrote,
in some execution of the server (`hist`: the history of its broker). -/
structure Connection (compile : Compile) (f : Filter) where
  cap : Ch → Nat
  k : HCfg
  filter : k.f = f
  state : HSt
  reach : HReach compile cap k state
  carried : List Out
  beginning : carried <+: state.out

/-- **C81** End to end, over any number of connections to servers: `Stream` never fails to decode; the
traces handed over are, up to clock readings that JSON drops, the traces that the handlers wrote, in
order; every one of them was published at its server and satisfies the filter. -/
theorem C81_end_to_end (compile : Compile) (f : Filter) (hf : f.Fresh compile) {s : CSt} (h : CReach s)
    (conns : List (Connection compile f)) (hr : s.read = conns.flatMap fun c => c.carried.map encOut) :
    s.pc ≠ .returned .badTrace ∧ s.pc ≠ .returned .badStats ∧
    (s.ctx = false → s.sent ++ pending s.pc = conns.flatMap fun c => (tracesOut c.carried).map wireStatic) ∧
    ∀ y ∈ s.sent, ∃ c ∈ conns, ∃ x, y = wireStatic x ∧ f.Sat compile x ∧ x ∈ published c.state.hist := by
  have hb : ¬ ∃ ev ∈ s.read, ev.Bad := by
    rintro ⟨ev, he, hb⟩
    rw [hr] at he
    obtain ⟨c, _, hm⟩ := List.mem_flatMap.mp he
    obtain ⟨o, _, rfl⟩ := List.mem_map.mp hm
    exact encOut_good o hb
  have ht : traces s.read = conns.flatMap fun c => (tracesOut c.carried).map wireStatic := by
    rw [hr]
    clear hr
    induction conns with
    | nil => rfl
    | cons c cs ih =>
      unfold traces at ih ⊢
      simp only [List.flatMap_cons, List.filterMap_append, ih]
      congr 1
      exact traces_encOut _
  have hbad := C81_bad_event h
  refine ⟨fun hp => hb (hbad.1 (.inl hp)), fun hp => hb (hbad.1 (.inr hp)), fun hc => ?_, fun y hy => ?_⟩
  · rw [← ht]; exact (C81_in_order h).2 hc
  · have hy : y ∈ traces s.read := (C81_in_order h).1.subset (List.mem_append_left _ hy)
    rw [ht] at hy
    obtain ⟨c, hc, hm⟩ := List.mem_flatMap.mp hy
    obtain ⟨x, hx, rfl⟩ := List.mem_map.mp hm
    have hx : Out.trace x ∈ c.carried := by
      unfold tracesOut at hx
      obtain ⟨o, ho, he⟩ := List.mem_filterMap.mp hx
      cases o <;> simp at he
      subst he; exact ho
    have := C69_filtered compile c.cap c.k c.reach (by rw [c.filter]; exact hf) (c.beginning.subset hx)
    rw [c.filter] at this
    exact ⟨c, hc, x, rfl, this⟩

/-! ## C82 -/

/-- **C82**, for a `Stream` that returns nil: its connection is closed, or the server ended it.  Full
statement: whenever `Stream` has returned, see `C82_connection_violated`. -/
theorem C82_closed_partial {s : CSt} (h : CReach s) (hp : s.pc = .returned .nil) : s.closed = true ∧ s.ctx = true ∨ s.gone = true := by
  have hi := creach_inv h
  rcases hi.nilRes hp with h | h
  · exact .inl ⟨h, hi.closed h⟩
  · exact .inr h

/-- **C82** Once the context is cancelled, the goroutine closes the connection and ends, however `Stream` returned; and
before that it does not. -/
theorem C82_cancelled_partial {s : CSt} (h : CReach s) {r : CRes} (hp : s.pc = .returned r) :
    (s.closed = true → s.ctx = true) ∧ (s.ctx = true → ∃ s', CStep s s' ∧ s'.closed = true ∧ s'.pc = .returned r ∧ s'.sent = s.sent) :=
  ⟨(creach_inv h).closed, fun hc => ⟨_, .close hc, rfl, hp, rfl⟩⟩

/-- **C82** is violated whenever `Stream` returns before the context is cancelled: the goroutine stays, and the
connection is not closed by the client, until the context is cancelled. -/
theorem C82_always_violated {s : CSt} (h : CReach s) {r : CRes} (hp : s.pc = .returned r) {s' : CSt} (hs : CSteps s s') (hc : s'.ctx = false) :
    s'.pc = .returned r ∧ s'.closed = false := by
  refine ⟨(C81_final hp hs).1, ?_⟩
  have hi := csteps_inv hs (creach_inv h)
  cases hcl : s'.closed with
  | false => rfl
  | true => rw [hi.closed hcl] at hc; cases hc

/-- **C82** is violated: `Stream` returns with an error, and neither the connection is closed nor the
goroutine ends, until the caller cancels the context; in particular if it calls `Stream` again with the
same context. -/
theorem C82_connection_violated : ∃ s, CReach s ∧ s.pc = .returned .badTrace ∧
    ∀ s', CSteps s s' → s'.ctx = false → s'.pc = .returned .badTrace ∧ s'.closed = false := by
  have h0 : dispatch ⟨"trace", some (.num 1)⟩ = .returned .badTrace := by
    simp [dispatch, unmarshal, decStatic, decObj]
  have h : CReach { pc := dispatch ⟨"trace", some (.num 1)⟩, read := [⟨"trace", some (.num 1)⟩] } :=
    .snoc .refl (.readEvent rfl)
  refine ⟨_, h, h0, fun s' hs hc => ⟨(C81_final h0 hs).1, ?_⟩⟩
  have hi := csteps_inv hs (creach_inv h)
  cases hcl : s'.closed with
  | false => rfl
  | true => rw [hi.closed hcl] at hc; cases hc

/-! ## Examples -/

namespace Example

/-- The client of the handler in `example_run`: it reads the two events and hands over the trace. -/
example : ∃ (conns : List (Connection compile k.f)) (s : CSt), CReach s ∧
    s.read = (conns.flatMap fun c => c.carried.map encOut) ∧ s.ctx = false ∧ s.sent = [wireStatic (tr "x")] := by
  obtain ⟨h, hr, ho, _⟩ := example_run
  let c : Connection compile k.f := ⟨cap, k, rfl, h, hr, h.out, List.prefix_refl _⟩
  have d1 : dispatch (encOut (.init k.f (cap k.c))) = .reading := rfl
  have d2 : dispatch (encOut (.trace (tr "x"))) = .sending (wireStatic (tr "x")) := by
    simp only [dispatch, encOut]
    rw [show unmarshal zeroStatic decStatic (some (encStatic (tr "x"))) = decStatic (encStatic (tr "x")) from rfl, static_rt]
    rfl
  refine ⟨[c], _, .snoc (.snoc (.snoc .refl (.readEvent (ev := encOut (.init k.f (cap k.c))) rfl))
    (.readEvent (ev := encOut (.trace (tr "x"))) d1)) (.send d2), ?_, rfl, rfl⟩
  simp only [List.flatMap_cons, List.flatMap_nil, c, ho]
  rfl

/-- An unknown event, a trace that is given up because the context ends, and the end. -/
example : ∃ s, CReach s ∧ s.pc = .returned .nil ∧ s.read.length = 2 ∧ s.sent = [] := by
  have d2 : dispatch (encOut (.trace (tr "x"))) = .sending (wireStatic (tr "x")) := by
    simp only [dispatch, encOut]
    rw [show unmarshal zeroStatic decStatic (some (encStatic (tr "x"))) = decStatic (encStatic (tr "x")) from rfl, static_rt]
    rfl
  exact ⟨_, .snoc (.snoc (.snoc (.snoc (.snoc (.snoc .refl (.readEvent (ev := ⟨"ping", none⟩) rfl))
    (.readEvent (ev := encOut (.trace (tr "x"))) rfl)) .cancel) (.skip d2 rfl)) (.close rfl)) (.readClosed rfl (.inl rfl)), rfl, rfl, rfl⟩

end Example

end Trc.Web
