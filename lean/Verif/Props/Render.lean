import Verif.Web.Render
import Verif.Props.URL

/-!
# C64, C67: content negotiation and rendered events
-/

namespace Trc.Web

open Core (Event Frame)

/-! ## C64 -/

/-- `a` is one of the elements of the comma-separated list `s`. -/
def Element (a s : List Char) : Prop :=
  ∃ pre post, s = pre ++ a ++ post ∧ ',' ∉ a ∧ (pre = [] ∨ ∃ p, pre = p ++ [',']) ∧
    (post = [] ∨ ∃ p, post = ',' :: p)

theorem splitComma_ne_nil (s : List Char) : splitComma s ≠ [] := by
  cases s with
  | nil => simp [splitComma]
  | cons c s =>
    unfold splitComma
    split
    · simp
    · split <;> simp

theorem splitComma_cons (c : Char) (s : List Char) :
    splitComma (c :: s) = if c = ',' then [] :: splitComma s
      else match splitComma s with
        | [] => [[c]]
        | p :: ps => (c :: p) :: ps := by
  conv => lhs; unfold splitComma
  rfl

theorem splitComma_append (a b : List Char) : splitComma (a ++ ',' :: b) = splitComma a ++ splitComma b := by
  induction a with
  | nil => rw [List.nil_append]; conv => lhs; unfold splitComma
           rw [if_pos rfl]; rfl
  | cons c a ih =>
    rw [List.cons_append, splitComma_cons, splitComma_cons, ih]
    split
    · rfl
    · cases hs : splitComma a with
      | nil => exact absurd hs (splitComma_ne_nil a)
      | cons p ps => rfl

theorem splitComma_clean (a : List Char) (h : ',' ∉ a) : splitComma a = [a] := by
  induction a with
  | nil => rfl
  | cons c a ih =>
    simp only [List.mem_cons, not_or] at h
    unfold splitComma
    rw [if_neg (fun e => h.1 e.symm), ih h.2]

/-- The first element, and the rest if there is more. -/
theorem first_comma (s : List Char) : (',' ∉ s) ∨ ∃ a b, s = a ++ ',' :: b ∧ ',' ∉ a := by
  induction s with
  | nil => left; simp
  | cons c s ih =>
    by_cases hc : c = ','
    · right; exact ⟨[], s, by rw [hc]; rfl, by simp⟩
    · rcases ih with h | ⟨a, b, rfl, h⟩
      · left; simp only [List.mem_cons, not_or]; exact ⟨fun e => hc e.symm, h⟩
      · right; exact ⟨c :: a, b, rfl, by simp only [List.mem_cons, not_or]; exact ⟨fun e => hc e.symm, h⟩⟩

theorem mem_splitComma (a : List Char) : ∀ (n : Nat) (s : List Char), s.length ≤ n → (a ∈ splitComma s ↔ Element a s) := by
  intro n
  induction n with
  | zero =>
    intro s hs
    have : s = [] := List.eq_nil_of_length_eq_zero (by omega)
    subst this
    constructor
    · intro h
      have : a = [] := by simpa [splitComma] using h
      exact ⟨[], [], by simp [this], by simp [this], Or.inl rfl, Or.inl rfl⟩
    · rintro ⟨pre, post, h, _⟩
      have : a = [] := by
        have := congrArg List.length h
        simp at this
        exact List.eq_nil_of_length_eq_zero (by omega)
      simp [splitComma, this]
  | succ n ih =>
    intro s hs
    rcases first_comma s with h | ⟨x, y, rfl, hx⟩
    · rw [splitComma_clean s h]
      constructor
      · intro hm
        have : a = s := by simpa using hm
        exact ⟨[], [], by simp [this], this ▸ h, Or.inl rfl, Or.inl rfl⟩
      · rintro ⟨pre, post, rfl, ha, hp, hq⟩
        have h1 : pre = [] := by
          rcases hp with hp | ⟨p, rfl⟩
          · exact hp
          · exact absurd (by simp) h
        have h2 : post = [] := by
          rcases hq with hq | ⟨p, rfl⟩
          · exact hq
          · exact absurd (by simp) h
        subst h1; subst h2; simp
    · rw [splitComma_append, splitComma_clean x hx, List.singleton_append, List.mem_cons,
        ih y (by simp at hs; omega)]
      constructor
      · rintro (rfl | ⟨pre, post, rfl, ha, hp, hq⟩)
        · exact ⟨[], ',' :: y, by simp, hx, Or.inl rfl, Or.inr ⟨y, rfl⟩⟩
        · refine ⟨x ++ ',' :: pre, post, by simp, ha, Or.inr ?_, hq⟩
          rcases hp with rfl | ⟨p, rfl⟩
          · exact ⟨x, rfl⟩
          · exact ⟨x ++ ',' :: p, by simp⟩
      · rintro ⟨pre, post, h, ha, hp, hq⟩
        rcases hp with rfl | ⟨p, rfl⟩
        · left
          rw [List.nil_append] at h
          -- both `a` and `x` are what precedes the first comma
          have key : ∀ (u v : List Char) (r t : List Char), ',' ∉ u → ',' ∉ v → u ++ ',' :: r = v ++ t →
              (t = [] ∨ ∃ p, t = ',' :: p) → u = v := by
            intro u
            induction u with
            | nil =>
              intro v r t _ hv h _
              cases v with
              | nil => rfl
              | cons c v =>
                simp at h
                exact absurd (by rw [h.1]; simp) hv
            | cons c u ihu =>
              intro v r t hu hv h ht
              simp only [List.mem_cons, not_or] at hu
              cases v with
              | nil =>
                rcases ht with rfl | ⟨p, rfl⟩
                · simp at h
                · simp at h; exact absurd h.1.symm hu.1
              | cons d v =>
                simp only [List.mem_cons, not_or] at hv
                simp only [List.cons_append, List.cons.injEq] at h
                rw [h.1, ihu v r t hu.2 hv.2 h.2 ht]
          exact (key x a y post hx ha h hq).symm
        · right
          -- the comma before `a` is not before the first one
          have key : ∀ (u p : List Char) (r t : List Char), ',' ∉ u → u ++ ',' :: r = p ++ ',' :: t →
              (r = t ∧ p = u) ∨ ∃ q, p = u ++ ',' :: q ∧ r = q ++ ',' :: t := by
            intro u
            induction u with
            | nil =>
              intro p r t _ h
              cases p with
              | nil => left; simp at h; exact ⟨h, rfl⟩
              | cons c p => right; simp at h; exact ⟨p, by rw [h.1]; rfl, h.2⟩
            | cons c u ihu =>
              intro p r t hu h
              simp only [List.mem_cons, not_or] at hu
              cases p with
              | nil => simp at h; exact absurd h.1.symm hu.1
              | cons d p =>
                simp only [List.cons_append, List.cons.injEq] at h
                rcases ihu p r t hu.2 h.2 with ⟨h1, h2⟩ | ⟨q, h1, h2⟩
                · left; exact ⟨h1, by rw [h2, h.1]⟩
                · right; exact ⟨q, by rw [h1, h.1]; rfl, h2⟩
          have h' : x ++ ',' :: y = p ++ ',' :: (a ++ post) := by rw [h]; simp
          rcases key x p y (a ++ post) hx h' with ⟨h1, _⟩ | ⟨q, _, h2⟩
          · exact ⟨[], post, by rw [h1]; rfl, ha, Or.inl rfl, hq⟩
          · exact ⟨q ++ [','], post, by rw [h2]; simp, ha, Or.inr ⟨q, rfl⟩, hq⟩

/-- The Accept header, of one or more lines, explicitly lists the media type: an element of one of
its comma-separated lines is of that type. -/
def Lists (mime : List Char → Option String) (r : Req) (type : String) : Prop :=
  ∃ line ∈ r.accept, ∃ a, Element a line ∧ mime a = some type

/-- The URL has a parameter of this name. -/
def HasParam (r : Req) (name : String) : Prop := ∃ v, (bytesOf name, v) ∈ parseQuery r.rawQuery

theorem accepts_iff (mime : List Char → Option String) (hm : mime [] = none) (r : Req) (h1 : r.accept.length ≤ 1) (t : String) :
    requestExplicitlyAccepts mime r [t] = true ↔ Lists mime r t := by
  unfold requestExplicitlyAccepts parseAcceptMediaTypes Lists
  simp only [List.any_cons, List.any_nil, Bool.or_false, decide_eq_true_eq, List.mem_filterMap]
  unfold Req.getAccept
  match hl : r.accept with
  | [] =>
    simp [splitComma, hm]
  | [line] =>
    simp only [List.head?_cons, Option.getD_some, List.mem_singleton, exists_eq_left]
    constructor
    · rintro ⟨a, ha, hma⟩; exact ⟨a, (mem_splitComma a _ line (Nat.le_refl _)).1 ha, hma⟩
    · rintro ⟨a, ha, hma⟩; exact ⟨a, (mem_splitComma a _ line (Nat.le_refl _)).2 ha, hma⟩
  | _ :: _ :: _ => rw [hl] at h1; simp at h1

theorem has_iff (r : Req) (name : String) : (parseQuery r.rawQuery).has (bytesOf name) = true ↔ HasParam r name := by
  unfold Values.has HasParam vals
  simp only [Bool.not_eq_true', List.isEmpty_eq_false_iff, ne_eq, List.filterMap_eq_nil_iff]
  constructor
  · intro h
    refine Classical.byContradiction fun hn => h fun p hp => ?_
    split
    · next he => exact absurd ⟨p.2, he ▸ hp⟩ hn
    · rfl
  · rintro ⟨v, hv⟩ h
    have := h _ hv
    simp at this

/-- How a request should be served. -/
def Wanted (mime : List Char → Option String) (r : Req) (s : Served) : Prop :=
  (s = .stream ↔ Lists mime r "text/event-stream") ∧
  (s = .html ↔ ¬ Lists mime r "text/event-stream" ∧ Lists mime r "text/html" ∧ ¬ HasParam r "json") ∧
  (s = .json ↔ ¬ Lists mime r "text/event-stream" ∧ ¬ (Lists mime r "text/html" ∧ ¬ HasParam r "json"))

/-- **C64**, for requests with at most one Accept line.  Full statement: for all requests, but only
the first line is looked at, see `C64_second_line_violated`. -/
theorem C64_negotiated_partial (mime : List Char → Option String) (hm : mime [] = none) (r : Req) (h1 : r.accept.length ≤ 1) :
    Wanted mime r (served mime r) := by
  have hs := accepts_iff mime hm r h1 "text/event-stream"
  have hh := accepts_iff mime hm r h1 "text/html"
  have hj := has_iff r "json"
  unfold Wanted
  rw [← hs, ← hh, ← hj]
  unfold served categorize renderResponse
  cases requestExplicitlyAccepts mime r ["text/event-stream"] <;>
    cases requestExplicitlyAccepts mime r ["text/html"] <;>
    cases (parseQuery r.rawQuery).has (bytesOf "json") <;>
    simp

/-- **C64** With any number of lines the first line decides: a request is served as the request with
only its first Accept line. -/
theorem C64_first_line (mime : List Char → Option String) (r : Req) :
    served mime r = served mime { r with accept := r.accept.take 1 } := by
  unfold served categorize renderResponse requestExplicitlyAccepts parseAcceptMediaTypes Req.getAccept
  cases r.accept <;> rfl

/-- **C64** is violated by a request whose second Accept line asks for a stream: it gets JSON. -/
theorem C64_second_line_violated :
    ∃ (mime : List Char → Option String) (r : Req), mime [] = none ∧ Lists mime r "text/event-stream" ∧
      served mime r = .json ∧ ¬ Wanted mime r (served mime r) := by
  refine ⟨fun s => if s = [] then none else some (String.ofList s), ⟨[], ["*/*".toList, "text/event-stream".toList]⟩,
    rfl, ?_, by decide +kernel, ?_⟩
  · exact ⟨"text/event-stream".toList, by simp, "text/event-stream".toList,
      ⟨[], [], by simp, by decide, Or.inl rfl, Or.inl rfl⟩, by decide +kernel⟩
  · rintro ⟨h, _⟩
    have := h.2 ⟨"text/event-stream".toList, by simp, "text/event-stream".toList,
      ⟨[], [], by simp, by decide, Or.inl rfl, Or.inl rfl⟩, by decide +kernel⟩
    revert this
    decide +kernel

example : let mime : List Char → Option String := fun s => if s = [] then none else some (String.ofList s)
    served mime ⟨[], ["text/html,*/*".toList]⟩ = .html ∧ served mime ⟨bytesOf "json", ["text/html,*/*".toList]⟩ = .json ∧
    served mime ⟨bytesOf "json", ["text/html,text/event-stream".toList]⟩ = .stream := by decide +kernel

/-! ## C67 -/

/-- **C67** A start event, then the trace's events in order with indexes 0..n-1, then an end event
that tells whether the trace is finished. -/
theorem C67_shape (st : Static) :
    ∃ start mid end_, renderEvents st = start :: mid ++ [end_] ∧
      start.isStart = true ∧ start.isEnd = false ∧ start.index = -1 ∧ start.when_ = st.started ∧ start.delta = 0 ∧
      end_.isEnd = true ∧ end_.isStart = false ∧ end_.index = (st.events.length : Int) ∧ end_.cumulative = st.duration ∧
      end_.what = (if st.finished then "finished" else "active...") ∧
      mid.length = st.events.length ∧
      ∀ (i : Nat) (ev : Event), st.events[i]? = some ev → ∃ m : RenderEvent, mid[i]? = some m ∧ m.isStart = false ∧ m.isEnd = false ∧
        m.index = i ∧ m.when_ = ev.when_ ∧ m.what = ev.what ∧ m.isError = ev.isError ∧ m.stack = ev.stack ∧
        m.cumulative = ev.when_.sub st.started := by
  have key : ∀ (evs : List Event) (i : Int) (prev : Time), (renderLoop st.started i prev evs).1.length = evs.length ∧
      ∀ (j : Nat) (ev : Event), evs[j]? = some ev → ∃ m : RenderEvent, (renderLoop st.started i prev evs).1[j]? = some m ∧
        m.isStart = false ∧ m.isEnd = false ∧
        m.index = i + j ∧ m.when_ = ev.when_ ∧ m.what = ev.what ∧ m.isError = ev.isError ∧ m.stack = ev.stack ∧
        m.cumulative = ev.when_.sub st.started := by
    intro evs
    induction evs with
    | nil => intro i prev; exact ⟨rfl, fun j ev h => by simp at h⟩
    | cons e evs ih =>
      intro i prev
      obtain ⟨h1, h2⟩ := ih (i + 1) e.when_
      refine ⟨by simp [renderLoop, h1], fun j ev h => ?_⟩
      cases j with
      | zero =>
        simp at h
        subst h
        exact ⟨_, rfl, rfl, rfl, by simp, rfl, rfl, rfl, rfl, rfl⟩
      | succ j =>
        obtain ⟨m, hm, a, b, c, d⟩ := h2 j ev (by simpa using h)
        exact ⟨m, by simpa [renderLoop] using hm, a, b, by rw [c]; omega, d⟩
  obtain ⟨h1, h2⟩ := key st.events 0 st.started
  refine ⟨_, _, _, rfl, rfl, rfl, rfl, rfl, rfl, rfl, rfl, rfl, rfl, rfl, h1, fun i ev h => ?_⟩
  obtain ⟨m, hm, a, b, c, d⟩ := h2 i ev h
  exact ⟨m, hm, a, b, by rw [c]; omega, d⟩

/-- The times of the trace are on one clock: all with a monotonic reading, as in the process that
made the trace, or all without, as after a trip over the wire. -/
def OneClock (st : Static) : Prop := ∀ ev ∈ st.events, ev.when_.mono.isSome = st.started.mono.isSome

/-- The deltas of a list of rendered events. -/
def deltaSum (l : List RenderEvent) : Int := (l.map RenderEvent.delta).foldr (· + ·) 0

theorem deltaSum_append (a b : List RenderEvent) : deltaSum (a ++ b) = deltaSum a + deltaSum b := by
  unfold deltaSum
  induction a with
  | nil => simp
  | cons x a ih => simp only [List.cons_append, List.map_cons, List.foldr_cons, ih]; omega

/-- `Time.sub` as an integer. -/
def subI (t u : Time) : Int := t.sub u

/-- Readings of one clock can be added up. -/
theorem sub_chain {a b c : Time} (h1 : a.mono.isSome = c.mono.isSome) (h2 : b.mono.isSome = c.mono.isSome) :
    subI a b + subI b c = subI a c := by
  obtain ⟨aw, am⟩ := a
  obtain ⟨bw, bm⟩ := b
  obtain ⟨cw, cm⟩ := c
  cases am <;> cases bm <;> cases cm <;> simp [subI, Time.sub] at h1 h2 ⊢ <;> omega

theorem sub_self' (a : Time) : subI a a = 0 := by
  obtain ⟨aw, am⟩ := a
  cases am <;> simp [subI, Time.sub]

theorem sub_add (a : Time) (d : Duration) : subI (addTime a d) a = d := by
  change Int at d
  obtain ⟨aw, am⟩ := a
  cases am with
  | none => show aw + d - aw = d; omega
  | some m => show m + d - m = d; omega

/-- **C67**, for traces whose times are on one clock: the deltas up to each event add up to its
cumulative time, and all deltas add up to the duration of the trace.  Full statement: for all
static traces, but see `C67_mixed_clocks_violated`. -/
theorem C67_deltas_partial (st : Static) (h : OneClock st) :
    (∀ i m, (renderEvents st)[i]? = some m → deltaSum ((renderEvents st).take (i + 1)) = m.cumulative) ∧
    deltaSum (renderEvents st) = st.duration := by
  -- the loop, from an event at `prev`
  have key : ∀ (evs : List Event) (i : Int) (prev : Time), (∀ ev ∈ evs, ev.when_.mono.isSome = st.started.mono.isSome) →
      prev.mono.isSome = st.started.mono.isSome →
      (renderLoop st.started i prev evs).2.mono.isSome = st.started.mono.isSome ∧
      deltaSum (renderLoop st.started i prev evs).1 = subI (renderLoop st.started i prev evs).2 prev ∧
      ∀ (j : Nat) (m : RenderEvent), (renderLoop st.started i prev evs).1[j]? = some m →
        deltaSum ((renderLoop st.started i prev evs).1.take (j + 1)) + subI prev st.started = m.cumulative := by
    intro evs
    induction evs with
    | nil => intro i prev _ hp; exact ⟨hp, (sub_self' prev).symm, fun j m hj => by simp [renderLoop] at hj⟩
    | cons e evs ih =>
      intro i prev hev hp
      have he := hev e (by simp)
      obtain ⟨h1, h2, h3⟩ := ih (i + 1) e.when_ (fun ev hm => hev ev (by simp [hm])) he
      refine ⟨h1, ?_, ?_⟩
      · show subI e.when_ prev + deltaSum (renderLoop st.started (i + 1) e.when_ evs).1 = _
        rw [h2]
        have := sub_chain (a := (renderLoop st.started (i + 1) e.when_ evs).2) (b := e.when_) (c := prev)
          (h1.trans hp.symm) (he.trans hp.symm)
        show _ = subI (renderLoop st.started (i + 1) e.when_ evs).2 prev
        omega
      · intro j m hj
        have hc := sub_chain (a := e.when_) (b := prev) (c := st.started) he hp
        cases j with
        | zero =>
          simp [renderLoop] at hj
          subst hj
          show subI e.when_ prev + 0 + _ = subI e.when_ st.started
          omega
        | succ j =>
          have := h3 j m (by simpa [renderLoop] using hj)
          show subI e.when_ prev + deltaSum ((renderLoop st.started (i + 1) e.when_ evs).1.take (j + 1)) + _ = _
          rw [← this]
          omega
  obtain ⟨h1, h2, h3⟩ := key st.events 0 st.started h rfl
  have hlen : (renderLoop st.started 0 st.started st.events).1.length = st.events.length := by
    have : ∀ (evs : List Event) (i : Int) (prev : Time), (renderLoop st.started i prev evs).1.length = evs.length := by
      intro evs
      induction evs with
      | nil => intros; rfl
      | cons e evs ih => intro i prev; simp [renderLoop, ih]
    exact this _ _ _
  have hend : deltaSum (renderEvents st) = st.duration := by
    unfold renderEvents
    simp only [List.cons_append]
    show (0 : Int) + deltaSum (_ ++ _) = _
    rw [deltaSum_append, h2]
    show (0 : Int) + (_ + (subI (addTime st.started st.duration) _ + 0)) = st.duration
    have hc := sub_chain (a := addTime st.started st.duration) (b := (renderLoop st.started 0 st.started st.events).2)
      (c := st.started) (by cases hm : st.started.mono <;> simp [addTime, hm]) h1
    rw [sub_add] at hc
    refine Eq.trans ?_ hc
    omega
  refine ⟨fun i m hi => ?_, hend⟩
  cases i with
  | zero =>
    simp [renderEvents] at hi
    subst hi
    rfl
  | succ i =>
    by_cases hlt : i < st.events.length
    · have hi' : (renderLoop st.started 0 st.started st.events).1[i]? = some m := by
        unfold renderEvents at hi
        simp only [List.cons_append, List.getElem?_cons_succ] at hi
        rwa [List.getElem?_append_left (by omega)] at hi
      have := h3 i m hi'
      rw [sub_self'] at this
      unfold renderEvents
      simp only [List.cons_append, List.take_succ_cons]
      rw [List.take_append_of_le_length (by omega)]
      show (0 : Int) + deltaSum _ = _
      omega
    · have hi2 : (renderEvents st).length = st.events.length + 2 := by
        unfold renderEvents; simp [hlen]
      have hieq : i = st.events.length := by
        have := (List.getElem?_eq_some_iff.1 hi).1
        omega
      rw [List.take_of_length_le (by omega), hend]
      unfold renderEvents at hi
      simp only [List.cons_append, List.getElem?_cons_succ] at hi
      rw [List.getElem?_append_right (by omega), hlen, hieq] at hi
      simp at hi
      subst hi
      rfl

/-- **C67** is violated by a trace that mixes clocks, e.g. one put together by a caller: the deltas
do not add up to the duration when the wall clock was set between the readings. -/
theorem C67_mixed_clocks_violated : ∃ st : Static, deltaSum (renderEvents st) ≠ st.duration :=
  ⟨{ (default : Static) with
      started := { wall := 100, mono := some 0 }
      duration := 10
      events := [{ when_ := { wall := 1000, mono := none }, what := "x", stack := [], isError := false },
        { when_ := { wall := 1001, mono := some 7 }, what := "y", stack := [], isError := false }] }, by decide⟩

example : OneClock { (default : Static) with
      started := { wall := 100 }
      duration := 10
      events := [{ when_ := { wall := 103 }, what := "x", stack := [], isError := false },
        { when_ := { wall := 107 }, what := "y", stack := [], isError := true }] } := by
  unfold OneClock; decide

end Trc.Web
